import Verif.Proofs.TextDoc
import Verif.Props.ParserComplete

/-!
# The accepted language: C75

A text is accepted exactly if it is a text of the grammar of `Spec/Grammar.lean`.
-/

namespace Yarql
open Parser Doc Grammar

/-- Parsing `text` returns normally, without errors. -/
def Accepted (text : Bytes) (target : Option Bytes) : Prop :=
  ∃ s, parseQuery text target = .ok () s ∧ s.errs = []

/-- **C75.** The parser accepts exactly the texts of the grammar. -/
theorem C75_accepted_iff_grammar (text : Bytes) (target : Option Bytes) : Accepted text target ↔ ∃ d, Text d text := by
  constructor
  · rintro ⟨s, hs, he⟩
    exact parseQuery_text hs he
  · rintro ⟨d, h⟩
    obtain ⟨s, hs, he, _⟩ := C02_document_compiles d text target h
    exact ⟨s, hs, he⟩

/-- **C75.** Every other text is answered with at least one error. -/
theorem C75_rejected_iff_not_grammar (text : Bytes) (target : Option Bytes) : Rejected text target ↔ ¬ ∃ d, Text d text := by
  obtain ⟨s, hs, _⟩ := parse_post text target
  constructor
  · rintro ⟨s', hs', he⟩ ⟨d, hd⟩
    obtain ⟨s'', hs'', he'', _⟩ := C02_document_compiles d text target hd
    rw [hs'] at hs''
    cases hs''
    exact he he''
  · intro h
    exact ⟨s, hs, fun he => h (parseQuery_text hs he)⟩

/-- **C75.** What an accepted text compiles to is the encoding of a document whose text it is (not just of some document). -/
theorem C75_accepted_compiles (text : Bytes) (target : Option Bytes) (s : PS) (h : parseQuery text target = .ok () s)
    (hok : s.errs = []) : ∃ d, Text d text ∧ s.res = encDoc d ∧ s.frags = fragPositions 0 d ∧
      s.targetIdx = selectedOp target (opPositions 0 d) := by
  obtain ⟨d, hd⟩ := parseQuery_text h hok
  obtain ⟨s', hs', _, h1, h2, h3⟩ := C02_document_compiles d text target hd
  rw [h] at hs'
  cases hs'
  exact ⟨d, hd, h1, h2, h3⟩

/-- **C75.** Whether a text is accepted does not depend on the operation name the request asks for. -/
theorem C75_target_irrelevant (text : Bytes) (t₁ t₂ : Option Bytes) : Accepted text t₁ ↔ Accepted text t₂ :=
  (C75_accepted_iff_grammar text t₁).trans (C75_accepted_iff_grammar text t₂).symm

/-- **C75.** No text has two readings: documents with a common text have one encoding. -/
theorem C75_one_reading (d₁ d₂ : List Def) (text : Bytes) (h₁ : Text d₁ text) (h₂ : Text d₂ text) : encDoc d₁ = encDoc d₂ := by
  obtain ⟨s, hs, _, h, _⟩ := C02_document_compiles d₁ text none h₁
  obtain ⟨s', hs', _, h', _⟩ := C02_document_compiles d₂ text none h₂
  rw [hs] at hs'
  cases hs'
  exact h.symm.trans h'

/-! ## C05: the text of an error -/

/-- An error that quotes a byte shows the character with that code, in UTF-8. -/
theorem strOfByte_utf8 (c : Byte) : strOfByte c = utf8of c.toNat := by
  have h : ∀ n : Fin 256, strOfByte (UInt8.ofNat n.val) = utf8of n.val := by decide +kernel
  have := h ⟨c.toNat, c.toNat_lt⟩
  simpa using this

/-- **C05** (message and place of the error): a text whose first character (behind ignored text) starts no definition is
answered with exactly one error, placed at that character and quoting it. -/
theorem C05_stray_character (ign rest : Bytes) (c : Byte) (target : Option Bytes) (hi : Ignored ign) (hc : ¬ Blank c)
    (hd : c ∉ b%"#{qmsf") :
    ∃ s, parseQuery (ign ++ c :: rest) target = .ok () s ∧ s.errs =
      [⟨b%"expected query, mutation, subscription or a simple query (\"{...}\") but got \"" ++ utf8of c.toNat ++ b%"\"",
        1 + Location.lineBreaks ign, Location.column ign⟩] := by
  obtain ⟨s, hs, _⟩ := parse_post (ign ++ c :: rest) target
  refine ⟨s, hs, ?_⟩
  have hd' : c ≠ c%'#' ∧ c ≠ c%'{' ∧ c ≠ c%'q' ∧ c ≠ c%'m' ∧ c ≠ c%'s' ∧ c ≠ c%'f' := by
    simpa using hd
  have hat : ∀ (p : Nat) (k : Bytes), (ign ++ c :: rest).drop p = c :: rest → k.head? ≠ some c → k ≠ [] →
      ¬ At (ign ++ c :: rest) p k := by
    intro p k hp hk hk0 h
    obtain ⟨r, hr⟩ := at_iff_prefix.mp h
    rw [hp] at hr
    cases k with
    | nil => exact hk0 rfl
    | cons x k => injection hr with hr _; exact hk (by rw [hr]; rfl)
  have hw : ∀ fuel n, wp True (docLoop fuel (n + 1)) ⟨ign ++ c :: rest, target⟩ PS.init (fun _ s' => s'.errs =
      [⟨b%"expected query, mutation, subscription or a simple query (\"{...}\") but got \"" ++ utf8of c.toNat ++ b%"\"",
        1 + Location.lineBreaks ign, Location.column ign⟩]) := by
    intro fuel n
    unfold docLoop parseOperatorOrFragment
    rw [wp_bind, wp_bind]
    refine wp_mono (mightIgnore_exact (ign := ign) (rest := c :: rest) rfl hi ?_) ?_
    · rintro c' r h hh
      injection h with h _
      subst h
      exact hh.elim hc hd'.1
    rintro r _ ⟨rfl, p, rfl, hp⟩
    have hp' : p = ign.length := by
      have := congrArg List.length hp
      simp at this
      omega
    rw [List.head?_cons]
    dsimp only
    rw [wp_bind, wp_resLen, if_neg (by simpa using hd'.2.1), wp_bind]
    refine wp_mono (matchesKw_wp [b%"query", b%"mutation", b%"subscription"] (by decide)) ?_
    rintro r s1 (⟨rfl, rfl, _⟩ | ⟨m, key, rfl, hg, h, rfl⟩)
    · dsimp only
      rw [wp_bind]
      refine wp_mono (matchesKw1 b%"fragment" (by simp)) ?_
      rintro r s1 (⟨rfl, rfl, _⟩ | ⟨rfl, h, rfl⟩)
      · dsimp only
        rw [wp_errC, if_pos rfl, wp_pure, strOfByte_utf8, hp']
        simp [PS.init, mkErr]
      · exact absurd h (hat p _ hp (by simpa using fun h => hd'.2.2.2.2.2 h.symm) (by simp))
    · refine absurd h (hat p _ hp ?_ ?_)
      · match m, hg with
        | 0, hg => injection hg with hg; subst hg; simpa using fun h => hd'.2.2.1 h.symm
        | 1, hg => injection hg with hg; subst hg; simpa using fun h => hd'.2.2.2.1 h.symm
        | 2, hg => injection hg with hg; subst hg; simpa using fun h => hd'.2.2.2.2.1 h.symm
        | m + 3, hg => simp at hg
      · match m, hg with
        | 0, hg => injection hg with hg; subst hg; simp
        | 1, hg => injection hg with hg; subst hg; simp
        | 2, hg => injection hg with hg; subst hg; simp
        | m + 3, hg => simp at hg
  have := hw (parseFuel (ign ++ c :: rest)) ((ign ++ c :: rest).length + 1)
  unfold wp at this
  unfold parseQuery at hs
  rw [hs] at this
  exact this

/-! ## Non-vacuity -/

example : ∃ s, parseQuery (b%" \n" ++ 0xE9 :: b%"x") none = .ok () s ∧ s.errs =
    [⟨b%"expected query, mutation, subscription or a simple query (\"{...}\") but got \"" ++ [0xC3, 0xA9] ++ b%"\"", 2, 0⟩] :=
  C05_stray_character b%" \n" b%"x" 0xE9 none (.blank (.inl rfl) (.blank (.inr (.inr (.inl rfl))) .nil)) (by unfold Blank; decide) (by decide)


theorem rejected_demo {text : Bytes} (h : (parseDemo text none).map (fun x => x.2.2.2.isEmpty) = some false) : Rejected text none := by
  obtain ⟨s, hs, _⟩ := parse_post text none
  refine ⟨s, hs, fun h0 => ?_⟩
  unfold parseDemo at h
  rw [hs] at h
  simp [h0] at h

/-- A keyword may be glued to the name: this is the query `A`. -/
theorem C75_glued_keyword : Text [.op ⟨.query, b%"A", none, [], [.field b%"f" none [] none []]⟩] b%"queryA{f}" := by
  refine ⟨.word b%"query" :: ([.name b%"A"] ++ ([] ++ ([] ++ (.punct c%'{' :: ([.name b%"f"] ++ [.punct c%'}']))))), ?_, ?_⟩
  · have h : SelsT [.field b%"f" none [] none []] [.name b%"f"] := by
      simpa using SelsT.cons (SelT.field isName_f .nil (by simp) .none (Or.inl rfl) .none) .none .nil
    simpa [keyword] using DocT.cons (DefT.op (k := .query) (.some (n := b%"A") ⟨by decide, c%'A', [], rfl, by unfold NameStart; decide, by simp⟩) .none .nil (by simp) h) .nil
  · refine lex0 (LexAt.cons (sp := b%"query") .word trivial (lex0 (lexN (n := b%"A") (c := c%'{') (by unfold NameChar NameStart; decide) ?_)))
    exact lex0 (lexP (by decide) (lex0 (lexN (n := b%"f") (c := c%'}') (by unfold NameChar NameStart; decide) (lex0 (lexP (by decide) lexEnd)))))

example : Accepted b%"queryA{f}" none ∧ Accepted b%"queryA{f}" (some b%"B") :=
  ⟨(C75_accepted_iff_grammar _ _).mpr ⟨_, C75_glued_keyword⟩, (C75_accepted_iff_grammar _ _).mpr ⟨_, C75_glued_keyword⟩⟩

/-- A line break in a quoted string, and a fragment definition without `on`, are not texts of the grammar. -/
example : (¬ ∃ d, Text d b%"{f(a:\"x\ny\")}") ∧ ¬ ∃ d, Text d b%"fragment F of T{a}" := by
  refine ⟨(C75_rejected_iff_not_grammar _ none).mp ?_, (C75_rejected_iff_not_grammar _ none).mp ?_⟩
  · exact rejected_demo (by decide +kernel)
  · exact rejected_demo (by decide +kernel)

end Yarql
