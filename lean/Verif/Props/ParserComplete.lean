import Verif.Proofs.Limits
import Verif.Props.Parser

/-!
# Query parser: C02, C03, C04 (parser part), C07, C08 (parser part), C09, C47

The grammar is `Spec/Grammar.lean` (`Text d text`: `text` is a text of the document `d` in some layout), the bytecode
encoding `Spec/Document.lean`.  `Parsed text target d` below is the conclusion "`ParseQueryToBytecode` returns normally, without
errors, with exactly the encoding of `d`, its fragment table and the position of the selected operation".
-/

namespace Yarql
open Parser Doc Grammar

/-- Parsing `text` with operation target `target` yields the document `d`. -/
def Parsed (text : Bytes) (target : Option Bytes) (d : List Def) : Prop :=
  ∃ s, parseQuery text target = .ok () s ∧ s.errs = [] ∧ s.res = encDoc d ∧ s.frags = fragPositions 0 d ∧
    s.targetIdx = selectedOp target (opPositions 0 d)

/-- Parsing `text` returns normally with a non-empty error list. -/
def Rejected (text : Bytes) (target : Option Bytes) : Prop :=
  ∃ s, parseQuery text target = .ok () s ∧ s.errs ≠ []

/-- **C02.** Every text of every document of the grammar compiles, without errors, to the documented encoding. -/
theorem C02_document_compiles (d : List Def) (text : Bytes) (target : Option Bytes) (h : Text d text) :
    Parsed text target d := by
  obtain ⟨s, hs, _⟩ := parse_post text target
  have hc := parseQuery_complete text target d h
  unfold wp at hc
  unfold parseQuery at hs
  dsimp only at hc
  rw [hs] at hc
  obtain ⟨h1, h2, h3, h4⟩ := hc
  exact ⟨s, hs, h1, h2, h3, by rw [h4, stepTgt_none]⟩

/-- **C03.** Two texts of one document parse to the same bytecode, fragment table and target, both without errors. -/
theorem C03_layout_independent (d : List Def) (text₁ text₂ : Bytes) (target : Option Bytes)
    (h₁ : Text d text₁) (h₂ : Text d text₂) :
    ∃ s₁ s₂, parseQuery text₁ target = .ok () s₁ ∧ parseQuery text₂ target = .ok () s₂ ∧ s₁.errs = [] ∧ s₂.errs = [] ∧
      s₁.res = s₂.res ∧ s₁.frags = s₂.frags ∧ s₁.targetIdx = s₂.targetIdx := by
  obtain ⟨s₁, a1, a2, a3, a4, a5⟩ := C02_document_compiles d text₁ target h₁
  obtain ⟨s₂, b1, b2, b3, b4, b5⟩ := C02_document_compiles d text₂ target h₂
  exact ⟨s₁, s₂, a1, b1, a2, b2, by rw [a3, b3], by rw [a4, b4], by rw [a5, b5]⟩

/-- Inserting ignored text (blanks, comments) in front of a document's text gives a text of the same document. -/
theorem C03_ignored_prefix (d : List Def) (text ign : Bytes) (hi : Ignored ign) (h : Text d text) : Text d (ign ++ text) := by
  have happ : ∀ {a b : Bytes}, Ignored a → Ignored b → Ignored (a ++ b) := by
    intro a b ha hb
    induction ha with
    | nil => simpa
    | blank hc _ ih => exact .blank hc ih
    | comment h1 h2 _ ih => simpa using Ignored.comment h1 h2 ih
  obtain ⟨toks, hd, hl⟩ := h
  refine ⟨toks, hd, ?_⟩
  cases hl with
  | trailing ht =>
    refine .trailing ?_
    cases ht with
    | plain h => exact .plain (happ hi h)
    | comment h hb => simpa using Trailing.comment (happ hi h) hb
  | mk h1 h2 => simpa using Lex.mk (happ hi h1) h2

/-- Position in the encoding and definition of each operation. -/
def opsAt (at_ : Nat) : List Def → List (Nat × Operation)
  | [] => []
  | .op o :: ds => (at_, o) :: opsAt (at_ + (encOperation o).length) ds
  | .frag f :: ds => opsAt (at_ + (encFragment f).length) ds

theorem opPositions_eq (d : List Def) (n : Nat) : opPositions n d = (opsAt n d).map (fun p => (p.1, p.2.name)) := by
  induction d generalizing n with
  | nil => rfl
  | cons x ds ih => cases x <;> simp [opPositions, opsAt, ih]

theorem opsAt_spec (d : List Def) (pre : Bytes) (p : Nat) (o : Operation) (h : (p, o) ∈ opsAt pre.length d) :
    Def.op o ∈ d ∧ ∃ post, (pre ++ encDoc d).drop p = encOperation o ++ post := by
  induction d generalizing pre with
  | nil => simp [opsAt] at h
  | cons x ds ih =>
    cases x with
    | op o' =>
      simp only [opsAt, List.mem_cons] at h
      rcases h with h | h
      · cases h
        exact ⟨List.mem_cons_self, encDoc ds, by simp [encDoc, encDef]⟩
      · have e : pre.length + (encOperation o').length = (pre ++ encOperation o').length := by simp
        rw [e] at h
        obtain ⟨h1, post, h2⟩ := ih _ h
        exact ⟨List.mem_cons_of_mem _ h1, post, by simpa [encDoc, encDef] using h2⟩
    | frag f =>
      simp only [opsAt] at h
      have e : pre.length + (encFragment f).length = (pre ++ encFragment f).length := by simp
      rw [e] at h
      obtain ⟨h1, post, h2⟩ := ih _ h
      exact ⟨List.mem_cons_of_mem _ h1, post, by simpa [encDoc, encDef] using h2⟩

/-- The operations of a document, in order. -/
def operations (d : List Def) : List Operation := d.filterMap (fun | .op o => some o | .frag _ => none)

theorem opsAt_ops (d : List Def) (n : Nat) : (opsAt n d).map (·.2) = operations d := by
  induction d generalizing n with
  | nil => rfl
  | cons x ds ih => cases x <;> simp [opsAt, operations, ih] <;> exact ih _

/-- **C04** (parser part): the operation selected by an accepted query.  Without a target it is the last operation of the
document; with a target name the last operation carrying that name; and none is selected only if there is no such operation. -/
theorem C04_selected_operation (query : Bytes) (target : Option Bytes) (s : PS) (h : parseQuery query target = .ok () s)
    (hok : s.errs = []) :
    ∃ d : List Def, docWF d ∧ s.res = encDoc d ∧
      match (match target with
        | none | some [] => (operations d).getLast?
        | some t => ((operations d).filter (fun o => o.name == t)).getLast?) with
      | none => s.targetIdx = none
      | some o => ∃ p post, s.targetIdx = some p ∧ s.res.drop p = encOperation o ++ post := by
  obtain ⟨d, hd, hr, _, ht⟩ := C06_accepted_is_encoding query target s h hok
  refine ⟨d, hd, hr, ?_⟩
  have key : ∀ l : List (Nat × Operation), (∀ x ∈ l, x ∈ opsAt 0 d) →
      match (l.map (·.2)).getLast? with
      | none => (l.getLast?).map (·.1) = none
      | some o => ∃ p post, (l.getLast?).map (·.1) = some p ∧ s.res.drop p = encOperation o ++ post := by
    intro l hl
    rw [List.getLast?_map]
    cases hx : l.getLast? with
    | none => rfl
    | some x =>
      obtain ⟨_, post, h2⟩ := opsAt_spec d [] x.1 x.2 (hl _ (List.mem_of_getLast? hx))
      exact ⟨x.1, post, rfl, by rw [hr]; simpa using h2⟩
  have e : ∀ t : Bytes, (opPositions 0 d).filter (fun o => o.2 == t) =
      ((opsAt 0 d).filter (fun p => p.2.name == t)).map (fun p => (p.1, p.2.name)) := by
    intro t
    rw [opPositions_eq, List.filter_map]
    rfl
  have e2 : ∀ t : Bytes, (operations d).filter (fun o => o.name == t) = ((opsAt 0 d).filter (fun p => p.2.name == t)).map (·.2) := by
    intro t
    rw [← opsAt_ops d 0, List.filter_map]
    rfl
  have k1 := key (opsAt 0 d) (fun _ h => h)
  have k2 := fun t => key ((opsAt 0 d).filter (fun p => p.2.name == t)) (fun x hx => (List.mem_filter.mp hx).1)
  rw [opsAt_ops] at k1
  rw [ht]
  unfold selectedOp
  rcases target with _ | ⟨_ | ⟨a, t⟩⟩
  · simp only [opPositions_eq, List.getLast?_map, Option.map_map]; exact k1
  · simp only [opPositions_eq, List.getLast?_map, Option.map_map]; exact k1
  · simp only [e, e2, List.getLast?_map, Option.map_map] at *
    have := k2 (a :: t)
    exact this

/-! ## Concrete layouts -/

theorem lex0 {t ts r} (h : LexAt (t :: ts) r) : Lex (t :: ts) r := by simpa using Lex.mk .nil h
theorem lexEnd : Lex [] [] := .trailing (.plain .nil)
theorem sepP {c : Byte} (_h : c ≠ c%']') (rest : Bytes) : Separated (.punct c) [c] rest := trivial
theorem lexP {c : Byte} {ts r} (h : c ≠ c%']') (hl : Lex ts r) : LexAt (.punct c :: ts) (c :: r) :=
  LexAt.cons (t := .punct c) (sp := [c]) .punct (sepP h r) hl
theorem lexN {n ts c r} (hc : ¬ NameChar c) (hl : Lex ts (c :: r)) : LexAt (.name n :: ts) (n ++ c :: r) :=
  LexAt.cons .name (by intro c' r' h'; cases h'; exact hc) hl

/-- The document `{ key }`. -/
def docField (n : Bytes) : List Def := [.op ⟨.query, [], none, [], [.field n none [] none []]⟩]

/-- The document `{ f(a: v) }`. -/
def docArg (v : Value) : List Def :=
  [.op ⟨.query, [], none, [], [.field b%"f" none [] (some [(b%"a", v)]) []]⟩]

theorem isName_f : IsName b%"f" := ⟨by decide, c%'f', [], rfl, by unfold NameStart; decide, by simp⟩
theorem isName_a : IsName b%"a" := ⟨by decide, c%'a', [], rfl, by unfold NameStart; decide, by simp⟩

theorem text_docField {n : Bytes} (hn : IsName n) : Text (docField n) (c%'{' :: (n ++ b%"}")) := by
  refine ⟨.punct c%'{' :: ([.name n] ++ [.punct c%'}']), ?_, ?_⟩
  · have h : SelsT [.field n none [] none []] [.name n] := by
      simpa using SelsT.cons (SelT.field hn .nil (by simp) .none (Or.inl rfl) .none) .none .nil
    simpa [docField] using DocT.cons (DefT.short h) .nil
  · exact lex0 (lexP (by decide) (lex0 (lexN (by unfold NameChar NameStart; decide) (lex0 (lexP (by decide) lexEnd)))))

/-- `{f(a:<spelling>)}` is a text of `{ f(a: v) }`, for any one-token value. -/
theorem text_docArg {v : Value} {t : Tok} {sp : Bytes} (hv : ValT v [t]) (hs : Spell t sp) (hsep : ∀ r, Separated t sp (c%')' :: r)) :
    Text (docArg v) (b%"{f(a:" ++ sp ++ b%")}") := by
  refine ⟨.punct c%'{' :: ([.name b%"f", .punct c%'(', .name b%"a", .punct c%':', t, .punct c%')'] ++ [.punct c%'}']), ?_, ?_⟩
  · have hf : FieldsT [(b%"a", v)] [.name b%"a", .punct c%':', t] := by
      simpa using FieldsT.cons isName_a hv .none .nil
    have h : SelsT [.field b%"f" none [] (some [(b%"a", v)]) []] [.name b%"f", .punct c%'(', .name b%"a", .punct c%':', t, .punct c%')'] := by
      simpa using SelsT.cons (SelT.field isName_f .nil (by simp) (.some hf) (Or.inr (by simp)) .none) .none .nil
    simpa [docArg] using DocT.cons (DefT.short h) .nil
  · have h1 : LexAt [t, .punct c%')', .punct c%'}'] (sp ++ b%")}") :=
      LexAt.cons hs (hsep _) (lex0 (lexP (by decide) (lex0 (lexP (by decide) lexEnd))))
    have h2 : LexAt [.name b%"a", .punct c%':', t, .punct c%')', .punct c%'}'] (b%"a" ++ c%':' :: (sp ++ b%")}")) :=
      lexN (by unfold NameChar NameStart; decide) (lex0 (lexP (by decide) (lex0 h1)))
    have h3 := lexN (n := b%"f") (c := c%'(') (by unfold NameChar NameStart; decide) (lex0 (lexP (c := c%'(') (by decide) (lex0 h2)))
    simpa using lex0 (lexP (c := c%'{') (by decide) (lex0 h3))

/-! ## C07 limits -/

theorem rejected_of {text : Bytes} {target : Option Bytes}
    (h : ∀ fuel n, wp True (docLoop fuel n) ⟨text, target⟩ PS.init (fun _ s' => ∃ e, s'.errs = [e])) : Rejected text target := by
  obtain ⟨s, hs, _⟩ := parse_post text target
  have hc := h (parseFuel text) (text.length + 2)
  unfold wp at hc
  unfold parseQuery at hs
  rw [hs] at hc
  obtain ⟨e, he⟩ := hc
  exact ⟨s, hs, by simp [he]⟩

/-- **C07** (names): the query `{name}` compiles, with the name stored unchanged, exactly if the name has at most 254
characters, and is rejected with an error otherwise. -/
theorem C07_name_limit (n : Bytes) (target : Option Bytes) (hn : ∃ c cs, n = c :: cs ∧ NameStart c ∧ ∀ x ∈ cs, NameChar x) :
    (n.length ≤ 254 → Parsed (c%'{' :: (n ++ b%"}")) target (docField n)) ∧
    (254 < n.length → Rejected (c%'{' :: (n ++ b%"}")) target) :=
  ⟨fun h => C02_document_compiles _ _ _ (text_docField ⟨h, hn⟩),
   fun h => rejected_of (fun fuel m => nameOverflow hn h fuel m)⟩

/-- **C07** (names, everywhere a name is read): on any input position holding a name of 1..254 characters followed by some
other character, the name reader appends exactly that name and returns its exact length; on a longer one it reports an error. -/
theorem C07_name_reader (cfg : PCfg) (s : PS) (n rest : Bytes) (c : Byte) (hq : cfg.query.drop s.charNr = n ++ c :: rest)
    (hc : ¬ NameChar c) (hn : ∃ c cs, n = c :: cs ∧ NameStart c ∧ ∀ x ∈ cs, NameChar x) :
    (n.length ≤ 254 → parseAndWriteName cfg s =
      .ok (UInt8.ofNat n.length, false) { s with res := s.res ++ n, charNr := s.charNr + n.length }) ∧
    (254 < n.length → ∃ k s' e, parseAndWriteName cfg s = .ok (k, true) s' ∧ s'.errs = s.errs ++ [e]) := by
  refine ⟨fun hl => ?_, fun hl => ?_⟩
  · obtain ⟨c', cs', rfl, hc', hcs'⟩ := hn
    have h := parseAndWriteName_wp (b := False) (cfg := cfg) (s := s)
    have hst' : Stops (fun x => isNameChar x = true) (c :: rest) := by
      intro c'' r h; cases h; exact fun h => hc ((isNameChar_iff _).mp h)
    have hall' : ∀ x ∈ c' :: cs', isNameChar x = true := by
      intro x hx
      rcases List.mem_cons.mp hx with rfl | hx
      · exact isNameChar_of_start ((isNameStart_iff _).mpr hc')
      · exact (isNameChar_iff _).mpr (hcs' x hx)
    unfold wp at h
    have hq0 : cfg.query[s.charNr]? = some c' := get_of_drop (t := cs' ++ c :: rest) (by simpa using hq)
    cases hr : parseAndWriteName cfg s with
    | panic => rw [hr] at h; exact h.elim
    | oof => rw [hr] at h; exact h.elim
    | ok r s' =>
      rw [hr] at h
      obtain ⟨k, crit⟩ := r
      rcases h with ⟨h1, rfl, c1, hc1, hns⟩ | ⟨_, h2, _⟩ | ⟨c1, cs, h1, h2, h3, h4⟩
      · rw [hq0] at hc1; cases hc1
        rw [(isNameStart_iff _).mpr hc'] at hns; cases hns
      · rw [hq0] at h2; cases h2
      · have hall : ∀ x ∈ c1 :: cs, isNameChar x = true := by
          intro x hx
          rcases List.mem_cons.mp hx with rfl | hx
          · exact isNameChar_of_start h1
          · exact h2 x hx
        have hle := run_le hall hst' (h3.symm.trans hq)
        rcases h4 with ⟨h4, h5, h6, rfl, c2, h7, h8⟩ | ⟨h4, h5, rfl⟩ | ⟨h4, h5, h6, rfl⟩
        · have hst2 : Stops (fun x => isNameChar x = true) (cfg.query.drop (s.charNr + (cs.length + 1))) := by
            intro c r h
            have := get_of_drop h
            rw [h7] at this
            injection this with this
            subst this
            simp [h8]
          obtain ⟨e, _⟩ := run_unique hall hall' hst2 hst' (h3.symm.trans hq)
          rw [← e]
          have hk : k.toNat = (c1 :: cs).length := by simpa using h6
          have h4' : crit = false := h4
          rw [← u8_ofNat_of hk, h4']
          simp
        · simp at hle hl; omega
        · have h9 := query_none h6
          have h10 := congrArg List.length hq
          simp at hle hl h10
          omega
  · have h := parseName_overflow (b := False) (cfg := cfg) (s := s) (n := n) (rest := c :: rest) hq hn hl
    unfold wp at h
    cases hr : parseAndWriteName cfg s with
    | panic => rw [hr] at h; exact h.elim
    | oof => rw [hr] at h; exact h.elim
    | ok r s' =>
      rw [hr] at h
      obtain ⟨k, crit⟩ := r
      obtain ⟨h1, e, h2⟩ := h
      cases (show crit = true from h1)
      exact ⟨k, s', e, rfl, h2⟩

/-- The document `{ f dirs }`. -/
def docDirs (f : Bytes) (dirs : List Directive) : List Def := [.op ⟨.query, [], none, [], [.field f none dirs none []]⟩]

/-- **C07** (directives): in every layout, `{ f @.. @.. }` with at most 255 directives compiles with the exact count, and with
more it is rejected. -/
theorem C07_directive_limit (f : Bytes) (dirs : List Directive) (td : List Tok) (text : Bytes) (target : Option Bytes)
    (hf : IsName f) (hd : DirsT dirs td)
    (hl : LexAt (.punct c%'{' :: .name f :: (td ++ [.punct c%'}'])) text) :
    (dirs.length ≤ 255 → Parsed text target (docDirs f dirs)) ∧ (255 < dirs.length → Rejected text target) := by
  refine ⟨fun h => C02_document_compiles _ _ _ ⟨.punct c%'{' :: ((.name f :: td) ++ [.punct c%'}']), ?_, ?_⟩, fun h => ?_⟩
  · have h : SelsT [.field f none dirs none []] (.name f :: td) := by
      simpa using SelsT.cons (SelT.field hf hd h .none (Or.inl rfl) .none) .none .nil
    simpa [docDirs] using DocT.cons (DefT.short h) .nil
  · exact lex0 (by simpa using hl)
  · refine rejected_of (fun fuel n => dirOverflow (t := .punct c%'}') (more := []) hd h hf ?_ hl fuel n)
    exact good_cons.mpr ⟨goodPunct (by decide), good_nil⟩

/-! ## C08, C09 literals -/

/-- **C08** (parser part, quoted strings): whatever characters and escapes a quoted string is written with, it compiles to the
content they denote. (In nested and other positions: C02.) -/
theorem C08_quoted_string (t v : Bytes) (target : Option Bytes) (h : StrChars t v) :
    Parsed (b%"{f(a:" ++ (c%'"' :: (t ++ [c%'"'])) ++ b%")}") target (docArg (.str v)) :=
  C02_document_compiles _ _ _ (text_docArg .str (.str h) (by intro r _ c r' h'; cases h'; decide))

/-- **C08** (parser part, block strings). -/
theorem C08_block_string (pad t v : Bytes) (target : Option Bytes) (hp : ∀ x ∈ pad, BlockBlank x) (hs : Stops BlockBlank t)
    (h : BlockTail t v) :
    Parsed (b%"{f(a:" ++ (b%"\"\"\"" ++ (pad ++ t)) ++ b%")}") target (docArg (.str (trimEnd v))) :=
  C02_document_compiles _ _ _ (text_docArg .str (.block hp hs h) (by intro r _ c r' h'; cases h'; decide))

/-- **C09.** Every spelling of every number (any sign, digits, `_` separators, fraction, exponent) compiles to that number's
digits, as an integer exactly if it has neither a fraction nor an exponent, and as a float otherwise. (In nested and other
positions and with any following token: C02 and the `Separated` clause of the grammar.) -/
theorem C09_number (n : Num) (t : Bytes) (target : Option Bytes) (h : NumSpell n t) :
    Parsed (b%"{f(a:" ++ t ++ b%")}") target
      (docArg (if n.frac = none ∧ n.exp = none then .int n.text else .float n.text)) := by
  refine C02_document_compiles _ _ _ (text_docArg (t := .num n) ?_ (.num h) (by
    intro r c r' h'; cases h'; right; right; right; right; right; right; left; rfl))
  split
  · rename_i hc
    exact .int (by simp [Num.isInt, hc.1, hc.2])
  · rename_i hc
    refine .float ?_
    unfold Num.isInt
    cases h1 : n.frac <;> cases h2 : n.exp <;> simp_all

/-! ## C47 -/

/-- **C47 does not hold**: the GraphQL field `f(a: 1) @skip(if: true)` (arguments before directives) is rejected. -/
theorem C47_args_before_directives_rejected : Rejected b%"{f(a:1) @skip(if:true)}" none := by
  obtain ⟨s, hs, _⟩ := parse_post b%"{f(a:1) @skip(if:true)}" none
  refine ⟨s, hs, fun he => ?_⟩
  have h : parseDemo b%"{f(a:1) @skip(if:true)}" none = some ([0, c%'o', c%'q'], [], some 0, [(1, 8)]) := by decide +kernel
  unfold parseDemo at h
  rw [hs] at h
  simp [he] at h

/-- **C47** (what does hold): a field written with its directives before its arguments is accepted, in every layout. -/
theorem C47_directives_first_partial (f : Bytes) (dirs : List Directive) (args : Option (List (Bytes × Value))) (td ta : List Tok)
    (text : Bytes) (target : Option Bytes) (hf : IsName f) (hd : DirsT dirs td) (hn : dirs.length ≤ 255) (ha : ArgsT args ta)
    (hap : Apart dirs args) (hl : LexAt (.punct c%'{' :: .name f :: (td ++ (ta ++ [.punct c%'}']))) text) :
    Parsed text target [.op ⟨.query, [], none, [], [.field f none dirs args []]⟩] := by
  refine C02_document_compiles _ _ _ ⟨.punct c%'{' :: ((.name f :: (td ++ ta)) ++ [.punct c%'}']), ?_, lex0 (by simpa using hl)⟩
  have h : SelsT [.field f none dirs args []] (.name f :: (td ++ ta)) := by
    simpa using SelsT.cons (SelT.field hf hd hn ha hap .none) .none .nil
  simpa using DocT.cons (DefT.short h) .nil

/-! ## Non-vacuity -/

/-- A document with an argument holding an escaped string, laid out with a comment and a comma. -/
example : Text (docArg (.str b%"x\n\"y")) (b%"# c\n{f(a:" ++ (c%'"' :: (b%"x\\n\\\"y" ++ [c%'"'])) ++ b%")}") := by
  have hs : StrChars b%"x\\n\\\"y" b%"x\n\"y" := by
    refine StrChars.plain (by decide) (by unfold LineEnd; decide) (by decide) (by decide) ?_
    refine StrChars.esc (e := b%"n") (d := b%"\n") .n (StrChars.esc (e := b%"\"") (d := b%"\"") (.other (by decide) (by unfold LineEnd; decide) (by decide) (by decide) (by decide) (by decide) (by decide) (by decide)) ?_)
    exact .plain (by decide) (by unfold LineEnd; decide) (by decide) (by decide) .nil
  have := C03_ignored_prefix _ _ b%"# c\n" (Ignored.comment (body := b%" c") (c := c%'\n') (t := []) (by unfold LineEnd; decide) (by unfold LineEnd; decide) .nil)
    (text_docArg .str (.str hs) (by intro r _ c r' h'; cases h'; decide))
  simpa using this

example : Parsed b%"{f(a:-1_0.5e+3)}" none (docArg (.float b%"-10.5E3")) := by
  have h : NumSpell ⟨true, b%"10", some b%"5", some (false, b%"3")⟩ b%"-1_0.5e+3" := by
    refine NumSpell.mk (sgn := b%"-") (i := b%"1_0") (f := b%".5") (e := b%"e+3") .neg ?_ ?_ ?_ ⟨c%'-', _, rfl, Or.inl rfl⟩
    · exact .digit (by decide) (.sep (.digit (by decide) .nil))
    · exact Or.inr ⟨b%"5", b%"5", rfl, rfl, .digit (by decide) .nil⟩
    · exact Or.inr ⟨false, b%"3", c%'e', b%"+", b%"3", rfl, Or.inl rfl, .plus, .digit (by decide) .nil, rfl⟩
  simpa [Num.text] using C09_number _ _ none h

example : ∃ n, (∃ c cs, n = c :: cs ∧ NameStart c ∧ ∀ x ∈ cs, NameChar x) ∧ 254 < n.length ∧ Rejected (c%'{' :: (n ++ b%"}")) none := by
  have hn : ∃ c cs, List.replicate 300 c%'a' = c :: cs ∧ NameStart c ∧ ∀ x ∈ cs, NameChar x :=
    ⟨c%'a', List.replicate 299 c%'a', rfl, by unfold NameStart; decide, by
      intro x hx; rw [List.eq_of_mem_replicate hx]; unfold NameChar NameStart; decide⟩
  have hl : 254 < (List.replicate 300 c%'a').length := by rw [List.length_replicate]; decide
  exact ⟨_, hn, hl, (C07_name_limit _ none hn).2 hl⟩

end Yarql
