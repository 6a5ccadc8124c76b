import Verif.Proofs.DocComplete

/-!
# Accepted texts are documents: ignored text, names and literals

The other direction of the completeness proofs: what a parser function has read without reporting an error is spelled by
tokens of the grammar.  The emitted bytes play no role here.
-/

namespace Yarql
namespace Parser
open Grammar Doc

/-- `X` holds if the run that ended in `s'` reported no error (then none was reported before `s`). -/
def Clean (s s' : PS) (X : Prop) : Prop := s'.errs = [] → s.errs = [] ∧ X

theorem clean_err {s s' : PS} {X : Prop} {l : List PErr} {e : PErr} (h : s'.errs = l ++ [e]) : Clean s s' X :=
  fun h' => absurd (h.symm.trans h') (by simp)

theorem Clean.of {s s' : PS} {X : Prop} (h : s'.errs = s.errs) (hx : X) : Clean s s' X := fun h' => ⟨h ▸ h', hx⟩

theorem Clean.mono {s s1 s' : PS} {X Y : Prop} (h : Clean s1 s' X) (he : s1.errs = s.errs) (hxy : X → Y) : Clean s s' Y :=
  fun h' => ⟨he ▸ (h h').1, hxy (h h').2⟩

/-! ## Ignored text -/

theorem lineSplit (t : Bytes) : ∃ body rest, t = body ++ rest ∧ (∀ x ∈ body, ¬ LineEnd x) ∧
    (rest = [] ∨ ∃ c r, rest = c :: r ∧ LineEnd c) := by
  induction t with
  | nil => exact ⟨[], [], rfl, by simp, .inl rfl⟩
  | cons x t ih =>
    by_cases h : LineEnd x
    · exact ⟨[], x :: t, rfl, by simp, .inr ⟨x, t, rfl, h⟩⟩
    · obtain ⟨body, rest, rfl, h1, h2⟩ := ih
      refine ⟨x :: body, rest, rfl, ?_, h2⟩
      intro y hy
      rcases List.mem_cons.mp hy with rfl | hy
      · exact h
      · exact h1 y hy

/-- Every text is ignored text and then the start of a token, the end, or an unclosed comment. -/
theorem ignSplit : ∀ (n : Nat) (t : Bytes), t.length ≤ n →
    (∃ ign rest, t = ign ++ rest ∧ Ignored ign ∧ TokStart rest) ∨
    (∃ ign body, t = ign ++ c%'#' :: body ∧ Ignored ign ∧ ∀ x ∈ body, ¬ LineEnd x)
  | _, [], _ => .inl ⟨[], [], rfl, .nil, by intro c r h; cases h⟩
  | n + 1, c :: t, hl => by
    simp only [List.length_cons] at hl
    by_cases hb : Blank c
    · rcases ignSplit n t (by omega) with ⟨ign, rest, rfl, h1, h2⟩ | ⟨ign, body, rfl, h1, h2⟩
      · exact .inl ⟨c :: ign, rest, rfl, .blank hb h1, h2⟩
      · exact .inr ⟨c :: ign, body, rfl, .blank hb h1, h2⟩
    · by_cases hc : c = c%'#'
      · subst hc
        obtain ⟨body, rest, rfl, h1, rfl | ⟨d, r, rfl, hd⟩⟩ := lineSplit t
        · exact .inr ⟨[], body, by simp, .nil, h1⟩
        · rcases ignSplit n r (by simp at hl; omega) with ⟨ign, rest, rfl, h2, h3⟩ | ⟨ign, b2, rfl, h2, h3⟩
          · exact .inl ⟨c%'#' :: (body ++ d :: ign), rest, by simp, .comment h1 hd h2, h3⟩
          · exact .inr ⟨c%'#' :: (body ++ d :: ign), b2, by simp, .comment h1 hd h2, h3⟩
      · refine .inl ⟨[], c :: t, rfl, .nil, ?_⟩
        rintro c' r h hi
        injection h with h _
        subst h
        exact hi.elim hb hc

theorem trailing_ign {ign t : Bytes} (hi : Ignored ign) (h : Trailing t) : Trailing (ign ++ t) := by
  cases h with
  | plain h => exact .plain (Ignored.append hi h)
  | comment h hb =>
    rw [← List.append_assoc]
    exact .comment (Ignored.append hi h) hb

theorem lex_ign {ign t : Bytes} {ts : List Tok} (hi : Ignored ign) (h : Lex ts t) : Lex ts (ign ++ t) := by
  cases h with
  | trailing h => exact .trailing (trailing_ign hi h)
  | mk h h' =>
    rw [← List.append_assoc]
    exact .mk (Ignored.append hi h) h'

/-- From `p` the text spells `toks`, and goes on at `p'`. -/
structure Reads (q : Bytes) (p p' : Nat) (toks : List Tok) : Prop where
  good : Good toks
  lex : ∀ more, Good more → Lex more (q.drop p') → Lex (toks ++ more) (q.drop p)

theorem Reads.refl {q p} : Reads q p p [] := ⟨good_nil, fun _ _ h => h⟩

theorem Reads.trans {q p p' p'' a b} (h : Reads q p p' a) (h' : Reads q p' p'' b) : Reads q p p'' (a ++ b) :=
  ⟨good_append.mpr ⟨h.good, h'.good⟩, fun more hm hl => by
    rw [List.append_assoc]
    exact h.lex _ (good_append.mpr ⟨h'.good, hm⟩) (h'.lex _ hm hl)⟩

theorem Reads.skip {q p p' p'' a} (h : Reads q p p' a) (h' : Reads q p' p'' []) : Reads q p p'' a := by
  simpa using h.trans h'

theorem Reads.pre {q p p' p'' a} (h : Reads q p p' []) (h' : Reads q p' p'' a) : Reads q p p'' a := by
  simpa using h.trans h'

theorem Reads.tok {q p p' t sp} (hg : GoodTok t) (hs : Spell t sp) (hd : q.drop p = sp ++ q.drop p')
    (hsep : Separated t sp (q.drop p')) : Reads q p p' [t] :=
  ⟨good_cons.mpr ⟨hg, good_nil⟩, fun more _ hl => by
    rw [hd]
    have := Lex.mk .nil (LexAt.cons hs hsep hl)
    simpa using this⟩

theorem Reads.punct {q p c} (hc : q[p]? = some c) (hm : c ∈ b%"{}()[]:=!,") : Reads q p (p + 1) [.punct c] :=
  .tok (goodPunct hm) .punct (drop_eq_cons hc) trivial

/-- What `mightIgnore` has skipped. -/
structure Skipped (q : Bytes) (p p' : Nat) (c : Byte) : Prop where
  get : q[p']? = some c
  tok : ¬ IgnStart c
  reads : Reads q p p' []
  lt : p < q.length
  stay : ∀ c0, q[p]? = some c0 → ¬ IgnStart c0 → p' = p

theorem mightIgnore_text {cfg s} : wp True mightIgnore cfg s (fun r s' => ∃ p, s' = { s with charNr := p } ∧
    (r = none → Trailing (cfg.query.drop s.charNr)) ∧ ∀ c, r = some c → Skipped cfg.query s.charNr p c) := by
  rcases ignSplit _ (cfg.query.drop s.charNr) (Nat.le_refl _) with ⟨ign, rest, h, hi, hr⟩ | ⟨ign, body, h, hi, hb⟩
  · refine wp_mono (mightIgnore_exact h hi hr) ?_
    rintro r s' ⟨rfl, p, rfl, hp⟩
    refine ⟨p, rfl, ?_, ?_⟩
    · intro hn
      rw [h]
      cases rest with
      | nil => simpa using Trailing.plain hi
      | cons c r => cases hn
    · intro c hc
      cases rest with
      | nil => cases hc
      | cons d r =>
        injection hc with hc
        subst hc
        refine ⟨get_of_drop hp, hr d r rfl, ⟨good_nil, fun more _ hl => ?_⟩, ?_, ?_⟩
        · rw [h, ← hp]; exact lex_ign hi hl
        · have : (cfg.query.drop s.charNr).length ≠ 0 := by rw [h]; simp
          simp only [List.length_drop] at this
          omega
        · intro c0 h0 hn
          cases hi with
          | nil =>
            have e : cfg.query.drop p = cfg.query.drop s.charNr := by rw [h, hp]; rfl
            have l1 := query_lt (get_of_drop hp)
            have l2 := query_lt h0
            have := congrArg List.length e
            simp only [List.length_drop] at this
            omega
          | blank hb _ =>
            have := get_of_drop h
            rw [h0] at this
            injection this with this
            subst this
            exact (hn (.inl hb)).elim
          | comment _ _ _ =>
            have := get_of_drop h
            rw [h0] at this
            injection this with this
            subst this
            exact (hn (.inr rfl)).elim
  · refine wp_mono (mightIgnore_trailing h (.comment hi hb)) ?_
    rintro r s' ⟨rfl, p, rfl, hp⟩
    refine ⟨p, rfl, fun _ => ?_, fun c hc => by cases hc⟩
    rw [h]
    exact .comment hi hb

/-! ## Names -/

/-- What a successful `parseAndWriteName` has read. -/
structure NameAt (q : Bytes) (p : Nat) (n : Bytes) : Prop where
  isName : IsName n
  text : q.drop p = n ++ q.drop (p + n.length)
  stops : Stops NameChar (q.drop (p + n.length))

theorem NameAt.reads {q p n} (h : NameAt q p n) : Reads q p (p + n.length) [.name n] :=
  .tok h.isName .name h.text h.stops

theorem NameAt.sigil {q p n c} (h : NameAt q (p + 1) n) (hc : q[p]? = some c) (hs : c = c%'$' ∨ c = c%'@') :
    Reads q p (p + 1 + n.length) [.sigil c n] :=
  .tok (goodSigil hs h.isName) .sigil (by rw [drop_eq_cons hc, h.text]; rfl) h.stops

theorem parseName_text {cfg s} : wp True parseAndWriteName cfg s (fun r s' =>
    (r.2 = true ∧ ∃ l e, s'.errs = l ++ [e]) ∨
    (r = (0, false) ∧ s' = s) ∨
    (r.2 = false ∧ (r.1 == 0) = false ∧ ∃ n, NameAt cfg.query s.charNr n ∧
      s' = { s with res := s.res ++ n, charNr := s.charNr + n.length })) := by
  refine wp_mono parseAndWriteName_wp ?_
  rintro ⟨k, crit⟩ s' (⟨h0, rfl, c, hc, _⟩ | ⟨h1, h2, rfl⟩ | ⟨c, cs, h1, h2, h3, h⟩)
  · exact .inr (.inl ⟨h0, rfl⟩)
  · exact .inl ⟨h1, _, _, rfl⟩
  · rcases h with ⟨h4, h5, h6, rfl, c', h7, h8⟩ | ⟨h4, h5, rfl⟩ | ⟨h4, h5, h6, rfl⟩
    · have hn : IsName (c :: cs) := ⟨by simpa using h5, c, cs, rfl, (isNameStart_iff c).mp h1,
        fun x hx => (isNameChar_iff x).mp (h2 x hx)⟩
      refine .inr (.inr ⟨h4, name_ne_zero hn (by simpa using h6), c :: cs, ⟨hn, h3, ?_⟩, rfl⟩)
      intro x r hx
      have := get_of_drop hx
      rw [List.length_cons, h7] at this
      injection this with this
      subst this
      rw [← isNameChar_iff, h8]
      simp
    · exact .inl ⟨h4, _, _, rfl⟩
    · exact .inl ⟨h4, _, _, rfl⟩

/-- If no keyword stands here as a word, a name here is none of the keywords. -/
theorem not_keyword {q : Bytes} {p : Nat} {n : Bytes} (h : NameAt q p n) {keys : List Bytes} (hk : ∀ k ∈ keys, IsName k)
    (hp : ∀ k ∈ keys, ∀ k' ∈ keys, k <+: k' → k = k')
    (hno : (∀ k ∈ keys, ¬ At q p k) ∨ ∃ k ∈ keys, At q p k ∧ ∃ c, q[p + k.length]? = some c ∧ isNameChar c = true) :
    n ∉ keys := by
  intro hmem
  rcases hno with hno | ⟨k, hk1, hat, c, hc, hcc⟩
  · exact hno n hmem (at_iff_prefix.mpr ⟨_, h.text⟩)
  · obtain ⟨r, hr⟩ := at_iff_prefix.mp hat
    have h2 := drop_add hr
    have h3 := drop_eq_cons hc
    rw [h2] at h3
    subst h3
    have hle : (k ++ [c]).length ≤ n.length := by
      refine run_le (P := NameChar) ?_ h.stops (b := n) (by rw [← h.text, hr]; simp; rfl)
      intro x hx
      rcases List.mem_append.mp hx with hx | hx
      · exact (hk k hk1).chars x hx
      · simp only [List.mem_singleton] at hx
        subst hx
        exact (isNameChar_iff _).mp hcc
    have hpre : k <+: n := by
      refine List.prefix_of_prefix_length_le ⟨_, hr.symm⟩ ⟨_, h.text.symm⟩ ?_
      simp at hle; omega
    have := hp k hk1 n hmem hpre
    subst this
    simp at hle
    omega

theorem At.drop {q : Bytes} {p : Nat} {k : Bytes} (h : At q p k) : q.drop p = k ++ q.drop (p + k.length) := by
  obtain ⟨r, hr⟩ := at_iff_prefix.mp h
  rw [drop_add hr]; exact hr

/-! ## Numbers -/

/-- A number ended at `n`; the parser stands at `p`, possibly inside the ignored text that follows. -/
def After (q : Bytes) (n p : Nat) : Prop :=
  (∃ c, q[n]? = some c ∧ NumStop c ∧ c ≠ c%'.') ∧ (p < q.length → Reads q n p [])

theorem lex_comment {body t : Bytes} {c : Byte} {ts : List Tok} (hb : ∀ x ∈ body, ¬ LineEnd x) (hc : LineEnd c) (hg : Good ts)
    (h : Lex ts (c :: t)) : Lex ts (c%'#' :: (body ++ c :: t)) := by
  have hcb : c ≠ c%'#' := by rcases hc with rfl | rfl <;> decide
  have hi0 : ∀ {t : Bytes}, Ignored (c :: t) → Ignored t := by
    intro t h
    generalize e : c :: t = l at h
    cases h with
    | nil => cases e
    | blank _ h => injection e with _ e; subst e; exact h
    | comment _ _ _ => injection e with e _; exact (hcb e).elim
  generalize e : c :: t = text at h
  cases h with
  | trailing h =>
    cases h with
    | plain h =>
      subst e
      exact .trailing (.plain (.comment hb hc (hi0 h)))
    | @comment t1 b2 h h2 =>
      cases t1 with
      | nil => simp only [List.nil_append] at e; injection e with e _; exact (hcb e).elim
      | cons d t1 =>
        rw [List.cons_append] at e
        injection e with e e'
        subst e
        subst e'
        have := Trailing.comment (Ignored.comment hb hc (hi0 h)) h2
        exact .trailing (by simpa using this)
  | @mk t1 ts ign rest h h2 =>
    cases ign with
    | nil =>
      obtain ⟨c1, r, e1, _, h3⟩ := h2.first (hg _ List.mem_cons_self)
      rw [List.nil_append, e1] at e
      injection e with e _
      subst e
      refine (h3 (.inl ?_)).elim
      rcases hc with rfl | rfl <;> simp [Blank]
    | cons d t1 =>
      rw [List.cons_append] at e
      injection e with e e'
      subst e
      subst e'
      have := Lex.mk (Ignored.comment hb hc (hi0 h)) h2
      simpa using this

theorem isIgnoredToken_text {cfg s c} (hq : cfg.query[s.charNr]? = some c) (hc : IgnStart c) :
    wp True (isIgnoredToken c) cfg s (fun r s' => r = true ∧ ∃ p, s' = { s with charNr := p } ∧
      (p < cfg.query.length → Reads cfg.query s.charNr p [])) := by
  have hd := drop_eq_cons hq
  unfold isIgnoredToken isComment isLineTerminator
  wps
  rcases hc with (rfl | rfl | rfl | rfl | rfl) | rfl
  · simp; exact ⟨s.charNr, rfl, fun _ => .refl⟩
  · simp; exact ⟨s.charNr, rfl, fun _ => .refl⟩
  · simp [hq]; exact ⟨s.charNr, rfl, fun _ => .refl⟩
  · simp only [hq, show ((13 : UInt8) == 32 || (13 : UInt8) == 9) = false by decide, Bool.false_eq_true, if_false,
        show ((13 : UInt8) == 10) = false by decide, beq_self_eq_true, if_true]
    split
    · refine ⟨by trivial, s.charNr + 1, rfl, fun _ => ⟨good_nil, fun more _ hl => ?_⟩⟩
      rw [hd]
      exact lex_ign (ign := [c%'\r']) (.blank (by simp [Blank]) .nil) hl
    · exact ⟨by trivial, s.charNr, rfl, fun _ => .refl⟩
  · simp [hq]; exact ⟨s.charNr, rfl, fun _ => .refl⟩
  · simp only [hq, show ((35 : UInt8) == 32 || (35 : UInt8) == 9) = false by decide, Bool.false_eq_true, if_false,
        show ((35 : UInt8) == 10) = false by decide, show ((35 : UInt8) == 13) = false by decide, beq_self_eq_true, if_true]
    obtain ⟨body, rest, hs, hb, hr⟩ := lineSplit (cfg.query.drop (s.charNr + 1))
    have hhash : ∀ x ∈ (c%'#' :: body), ¬ LineEnd x := by
      intro x hx
      rcases List.mem_cons.mp hx with rfl | hx
      · simp [LineEnd]
      · exact hb x hx
    have hd2 : cfg.query.drop s.charNr = (c%'#' :: body) ++ rest := by rw [hd, hs]; rfl
    have hd3 := drop_add hd2
    refine wp_mono (parseComment_exact _ _ (c%'#' :: body) rest (by omega) hd2 hhash hr) ?_
    rintro _ s' (⟨rfl, rfl⟩ | ⟨c, t', rfl, ⟨rfl, _⟩ | ⟨t'', rfl, rfl, rfl⟩⟩)
    · refine ⟨by trivial, _, rfl, fun hl => ?_⟩
      rw [List.drop_eq_nil_iff] at hd3
      omega
    · have hle : LineEnd c := by
        rcases hr with hr | ⟨c1, r1, hr, h⟩
        · cases hr
        · injection hr with hr _; subst hr; exact h
      refine ⟨by trivial, _, rfl, fun hl => ⟨good_nil, fun more hm hlex => ?_⟩⟩
      rw [hd3] at hlex
      rw [hd2]
      exact lex_comment hb hle hm hlex
    · refine ⟨by trivial, _, rfl, fun hl => ⟨good_nil, fun more hm hlex => ?_⟩⟩
      rw [drop_succ_of hd3] at hlex
      rw [hd2]
      have : Ignored (c%'#' :: (body ++ c%'\r' :: [])) := .comment hb (.inr rfl) .nil
      have := lex_ign this hlex
      simpa using this

theorem endOfNumber_text {cfg s c} (hq : cfg.query[s.charNr]? = some c) (hdot : c ≠ c%'.') :
    wp True (endOfNumber c) cfg s (fun r s' => (r = false ∧ s' = s) ∨
      (r = true ∧ ∃ p, s' = { s with charNr := p } ∧ After cfg.query s.charNr p)) := by
  unfold endOfNumber
  refine wp_if (fun hp => ?_) (fun hp => ?_)
  · rw [wp_pure]
    exact .inr ⟨rfl, s.charNr, rfl, ⟨c, hq, .inl hp, hdot⟩, fun _ => .refl⟩
  · rw [wp_bind]
    by_cases hi : IgnStart c
    · refine wp_mono (isIgnoredToken_text hq hi) ?_
      rintro _ _ ⟨rfl, p, rfl, h⟩
      rw [if_pos rfl, wp_pure]
      exact .inr ⟨rfl, p, rfl, ⟨c, hq, .inr (.inl hi), hdot⟩, h⟩
    · refine wp_mono (isIgnoredToken_no hq hi) ?_
      rintro _ _ ⟨rfl, rfl⟩
      rw [if_neg (by simp), wp_pure]
      by_cases hc : c = c%','
      · exact .inr ⟨by simp [hc], _, rfl, ⟨c, hq, .inr (.inr hc), hdot⟩, fun _ => .refl⟩
      · exact .inl ⟨by simp [hc], rfl⟩

end Parser
end Yarql
