import Verif.Proofs.TextTok

/-! # Accepted texts are documents: numbers -/

namespace Yarql
namespace Parser
open Grammar Doc

theorem closeLen_text {cfg s n} : wp True (closeLen n) cfg s (fun _ s' => s'.charNr = s.charNr ∧ s'.errs = s.errs) := by
  unfold closeLen
  rw [wp_bind, wp_resLen, wp_writeUint32]
  split
  · exact ⟨rfl, rfl⟩
  · trivial

theorem clean_eof {s s' : PS} {X : Prop} {cfg n m} (h : s'.errs = s.errs ++ [mkErr cfg n m]) : Clean s s' X := clean_err h

/-- From `n` to `n'` there are digits and separators. -/
def RunTo (q : Bytes) (n n' : Nat) : Prop := ∃ run ds, DigitRun run ds ∧ q.drop n = run ++ q.drop n'

theorem RunTo.refl {q n} : RunTo q n n := ⟨[], [], .nil, rfl⟩

theorem RunTo.digit {q n n' c} (hc : q[n]? = some c) (hd : isDigit c = true) (h : RunTo q (n + 1) n') : RunTo q n n' := by
  obtain ⟨run, ds, h1, h2⟩ := h
  exact ⟨c :: run, c :: ds, .digit (by simpa [isDigit] using hd) h1, by rw [drop_eq_cons hc, h2]; rfl⟩

theorem RunTo.sep {q n n'} (hc : q[n]? = some c%'_') (h : RunTo q (n + 1) n') : RunTo q n n' := by
  obtain ⟨run, ds, h1, h2⟩ := h
  exact ⟨c%'_' :: run, ds, .sep h1, by rw [drop_eq_cons hc, h2]; rfl⟩

theorem intLoop_text {cfg st} : ∀ (fuel : Nat) (s : PS) (c : Byte), cfg.query[s.charNr]? = some c →
    wp True (intLoop st fuel c) cfg s (fun r s' =>
      (∃ crit, r = .ret crit ∧ Clean s s' (crit = false ∧ ∃ n, RunTo cfg.query s.charNr n ∧ After cfg.query n s'.charNr)) ∨
      (∃ d, r = .brk d ∧ s'.errs = s.errs ∧ RunTo cfg.query s.charNr s'.charNr ∧ cfg.query[s'.charNr]? = some d ∧
        (d = c%'.' ∨ d = c%'e' ∨ d = c%'E')))
  | 0, _, _, _ => by unfold intLoop; trivial
  | fuel + 1, s, c, hc => by
    have next : ∀ (s1 : PS), s1.errs = s.errs → s1.charNr = s.charNr → (∀ n, RunTo cfg.query (s.charNr + 1) n → RunTo cfg.query s.charNr n) →
        wp True (do
          incPos
          match ← checkC (← getPos) with
          | none => return .ret (← unexpectedEOF)
          | some c => intLoop st fuel c) cfg s1 (fun r s' =>
      (∃ crit, r = .ret crit ∧ Clean s s' (crit = false ∧ ∃ n, RunTo cfg.query s.charNr n ∧ After cfg.query n s'.charNr)) ∨
      (∃ d, r = .brk d ∧ s'.errs = s.errs ∧ RunTo cfg.query s.charNr s'.charNr ∧ cfg.query[s'.charNr]? = some d ∧
        (d = c%'.' ∨ d = c%'e' ∨ d = c%'E'))) := by
      intro s1 he hn hrun
      rw [wp_bind, wp_incPos, wp_bind, wp_getPos, wp_bind, wp_checkC]
      dsimp only
      rw [hn]
      cases hq : cfg.query[s.charNr + 1]? with
      | none =>
        dsimp only
        rw [wp_bind, wp_unexpectedEOF, wp_pure]
        exact .inl ⟨_, rfl, clean_err rfl⟩
      | some d =>
        refine wp_mono (intLoop_text fuel { s1 with charNr := s.charNr + 1 } d hq) ?_
        rintro r s' (⟨crit, rfl, h⟩ | ⟨d, rfl, h1, h2, h3⟩)
        · exact .inl ⟨_, rfl, h.mono he (fun ⟨hc, n, h1, h2⟩ => ⟨hc, n, hrun n h1, h2⟩)⟩
        · exact .inr ⟨d, rfl, h1.trans he, hrun _ h2, h3⟩
    unfold intLoop
    refine wp_if (fun hd => ?_) (fun hd => ?_)
    · rw [wp_bind, wp_emit]
      exact next _ rfl rfl (fun n h => .digit hc hd h)
    · refine wp_if (fun hb => ?_) (fun hb => ?_)
      · rw [wp_pure]
        exact .inr ⟨c, rfl, rfl, .refl, hc, by simpa [or_assoc] using hb⟩
      · refine wp_if (fun hu => ?_) (fun hu => ?_)
        · have : c = c%'_' := by simpa using hu
          subst this
          exact next _ rfl rfl (fun n h => .sep hc h)
        · rw [wp_bind]
          refine wp_mono (endOfNumber_text hc (by rintro rfl; simp at hb)) ?_
          rintro r s1 (⟨rfl, rfl⟩ | ⟨rfl, p, rfl, h⟩)
          · rw [if_neg (by simp), wp_bind, wp_errC, wp_pure]
            exact .inl ⟨_, rfl, clean_err rfl⟩
          · rw [if_pos rfl, wp_bind]
            refine wp_mono closeLen_text ?_
            rintro _ s2 ⟨h1, h2⟩
            rw [wp_pure]
            exact .inl ⟨_, rfl, .of h2 ⟨rfl, s.charNr, .refl, by rw [h1]; exact h⟩⟩

theorem fracLoop_text {cfg st} : ∀ (fuel : Nat) (s : PS),
    wp True (fracLoop st fuel) cfg s (fun r s' =>
      (∃ crit, r = .ret crit ∧ Clean s s' (crit = false ∧ ∃ n, RunTo cfg.query (s.charNr + 1) n ∧ After cfg.query n s'.charNr)) ∨
      (∃ d, r = .brk d ∧ s'.errs = s.errs ∧ RunTo cfg.query (s.charNr + 1) s'.charNr ∧ cfg.query[s'.charNr]? = some d ∧
        (d = c%'e' ∨ d = c%'E')))
  | 0, _ => by unfold fracLoop; trivial
  | fuel + 1, s => by
    unfold fracLoop
    rw [wp_bind, wp_incPos, wp_bind, wp_getPos, wp_bind, wp_checkC]
    dsimp only
    cases hc : cfg.query[s.charNr + 1]? with
    | none =>
      dsimp only
      rw [wp_bind, wp_unexpectedEOF, wp_pure]
      exact .inl ⟨_, rfl, clean_err rfl⟩
    | some c =>
      dsimp only
      refine wp_if (fun hd => ?_) (fun hd => ?_)
      · rw [wp_bind, wp_emit]
        refine wp_mono (fracLoop_text fuel _) ?_
        rintro r s' (⟨crit, rfl, h⟩ | ⟨d, rfl, h1, h2, h3⟩)
        · exact .inl ⟨_, rfl, h.mono rfl (fun ⟨hc', n, h1, h2⟩ => ⟨hc', n, .digit hc hd h1, h2⟩)⟩
        · exact .inr ⟨d, rfl, h1, .digit hc hd h2, h3⟩
      · refine wp_if (fun hb => ?_) (fun hb => ?_)
        · rw [wp_pure]
          exact .inr ⟨c, rfl, rfl, .refl, hc, by simpa using hb⟩
        · refine wp_if (fun hu => ?_) (fun hu => ?_)
          · have : c = c%'_' := by simpa using hu
            subst this
            refine wp_mono (fracLoop_text fuel _) ?_
            rintro r s' (⟨crit, rfl, h⟩ | ⟨d, rfl, h1, h2, h3⟩)
            · exact .inl ⟨_, rfl, h.mono rfl (fun ⟨hc', n, h1, h2⟩ => ⟨hc', n, .sep hc h1, h2⟩)⟩
            · exact .inr ⟨d, rfl, h1, .sep hc h2, h3⟩
          · refine wp_if (fun hdot => ?_) (fun hdot => ?_)
            · rw [wp_bind, wp_errC, wp_pure]
              exact .inl ⟨_, rfl, clean_err rfl⟩
            · rw [wp_bind]
              refine wp_mono (endOfNumber_text (s := { s with charNr := s.charNr + 1 }) hc (by rintro rfl; simp at hdot)) ?_
              rintro r s1 (⟨rfl, rfl⟩ | ⟨rfl, p, rfl, h⟩)
              · rw [if_neg (by simp), wp_bind, wp_errC, wp_pure]
                exact .inl ⟨_, rfl, clean_err rfl⟩
              · rw [if_pos rfl, wp_bind]
                refine wp_mono closeLen_text ?_
                rintro _ s2 ⟨h1, h2⟩
                rw [wp_pure]
                exact .inl ⟨_, rfl, .of h2 ⟨rfl, s.charNr + 1, .refl, by rw [h1]; exact h⟩⟩

theorem expLoop_text {cfg} : ∀ (fuel : Nat) (s : PS) (c : Byte), cfg.query[s.charNr]? = some c →
    wp True (expLoop fuel c) cfg s (fun r s' =>
      (∃ l e, r = .ret true ∧ s'.errs = l ++ [e]) ∨
      (∃ d, r = .brk d ∧ s'.errs = s.errs ∧ ∃ n, RunTo cfg.query s.charNr n ∧ After cfg.query n s'.charNr))
  | 0, _, _, _ => by unfold expLoop; trivial
  | fuel + 1, s, c, hc => by
    have next : ∀ (s1 : PS), s1.errs = s.errs → s1.charNr = s.charNr → (∀ n, RunTo cfg.query (s.charNr + 1) n → RunTo cfg.query s.charNr n) →
        wp True (do
          incPos
          match ← checkC (← getPos) with
          | none => return .ret (← unexpectedEOF)
          | some c => expLoop fuel c) cfg s1 (fun r s' =>
      (∃ l e, r = .ret true ∧ s'.errs = l ++ [e]) ∨
      (∃ d, r = .brk d ∧ s'.errs = s.errs ∧ ∃ n, RunTo cfg.query s.charNr n ∧ After cfg.query n s'.charNr)) := by
      intro s1 he hn hrun
      rw [wp_bind, wp_incPos, wp_bind, wp_getPos, wp_bind, wp_checkC]
      dsimp only
      rw [hn]
      cases hq : cfg.query[s.charNr + 1]? with
      | none =>
        dsimp only
        rw [wp_bind, wp_unexpectedEOF, wp_pure]
        exact .inl ⟨_, _, rfl, rfl⟩
      | some d =>
        refine wp_mono (expLoop_text fuel { s1 with charNr := s.charNr + 1 } d hq) ?_
        rintro r s' (⟨l, e, rfl, h⟩ | ⟨d, rfl, h1, n, h2, h3⟩)
        · exact .inl ⟨l, e, rfl, h⟩
        · exact .inr ⟨d, rfl, h1.trans he, n, hrun _ h2, h3⟩
    unfold expLoop
    refine wp_if (fun hd => ?_) (fun hd => ?_)
    · rw [wp_bind, wp_emit]
      exact next _ rfl rfl (fun n h => .digit hc hd h)
    · refine wp_if (fun hb => ?_) (fun hb => ?_)
      · rw [wp_bind, wp_errC, wp_pure]
        exact .inl ⟨_, _, rfl, rfl⟩
      · refine wp_if (fun hu => ?_) (fun hu => ?_)
        · have : c = c%'_' := by simpa using hu
          subst this
          exact next _ rfl rfl (fun n h => .sep hc h)
        · rw [wp_bind]
          refine wp_mono (endOfNumber_text hc (by rintro rfl; simp at hb)) ?_
          rintro r s1 (⟨rfl, rfl⟩ | ⟨rfl, p, rfl, h⟩)
          · rw [if_neg (by simp), wp_bind, wp_errC, wp_pure]
            exact .inl ⟨_, _, rfl, rfl⟩
          · rw [if_pos rfl, wp_pure]
            exact .inr ⟨c, rfl, rfl, s.charNr, .refl, h⟩

/-- From `n` to `n'` there is an exponent. -/
def ExpTo (q : Bytes) (n n' : Nat) : Prop := ∃ neg ds l s t, (l = c%'e' ∨ l = c%'E') ∧ SignSpell neg s ∧ DigitRun t ds ∧
  q.drop n = l :: (s ++ t) ++ q.drop n'

theorem parseExponent_text {cfg s st vt c} (hc : cfg.query[s.charNr]? = some c) (he : c = c%'e' ∨ c = c%'E') :
    wp True (parseExponent st vt c) cfg s (fun crit s' => Clean s s' (crit = false ∧ ∃ n, ExpTo cfg.query s.charNr n ∧
      After cfg.query n s'.charNr)) := by
  have hd := drop_eq_cons hc
  have hE : (c == c%'e' || c == c%'E') = true := by rcases he with rfl | rfl <;> decide
  unfold parseExponent
  rw [if_pos hE, wp_bind, wp_setRes]
  split
  case isFalse => trivial
  rw [wp_bind, wp_emit, wp_bind, wp_incPos, wp_bind, wp_getPos, wp_bind, wp_checkC]
  dsimp only
  have go : ∀ (s1 : PS) (sg : Bytes) (neg : Bool) (c : Byte), s1.errs = s.errs → cfg.query[s1.charNr]? = some c → SignSpell neg sg →
      cfg.query.drop (s.charNr + 1) = sg ++ cfg.query.drop s1.charNr →
      wp True (do
        match ← expLoop (← loopFuel) c with
        | .ret crit => return crit
        | .brk _ =>
          closeLen st
          return false) cfg s1 (fun crit s' => Clean s s' (crit = false ∧ ∃ n, ExpTo cfg.query s.charNr n ∧
      After cfg.query n s'.charNr)) := by
    intro s1 sg neg d hs1 hq hsg hdr
    rw [wp_bind, wp_loopFuel, wp_bind]
    refine wp_mono (expLoop_text _ s1 d hq) ?_
    rintro r s' (⟨l, e, rfl, h⟩ | ⟨d, rfl, h1, n, ⟨run, ds, h2, h2'⟩, h3⟩)
    · rw [wp_pure]; exact clean_err h
    · dsimp only
      rw [wp_bind]
      refine wp_mono closeLen_text ?_
      rintro _ s2 ⟨h4, h5⟩
      rw [wp_pure]
      refine .of (h5.trans (h1.trans hs1)) ⟨rfl, n, ⟨neg, ds, c, sg, run, he, hsg, h2, ?_⟩, by rw [h4]; exact h3⟩
      rw [hd, hdr, h2']
      simp
  cases hq : cfg.query[s.charNr + 1]? with
  | none =>
    dsimp only
    rw [wp_unexpectedEOF]
    exact clean_err rfl
  | some d =>
    dsimp only
    refine wp_if (fun hs => ?_) (fun hs => ?_)
    · have key : ∀ (s1 : PS), s1.errs = s.errs → s1.charNr = s.charNr + 1 → wp True (do
            incPos
            match ← checkC (← getPos) with
            | none => unexpectedEOF
            | some c => (do
              match ← expLoop (← loopFuel) c with
              | .ret crit => return crit
              | .brk _ =>
                closeLen st
                return false)) cfg s1 (fun crit s' => Clean s s' (crit = false ∧ ∃ n, ExpTo cfg.query s.charNr n ∧
              After cfg.query n s'.charNr)) := by
        intro s1 h1 h2
        rw [wp_bind, wp_incPos, wp_bind, wp_getPos, wp_bind, wp_checkC]
        dsimp only
        rw [h2]
        cases hq2 : cfg.query[s.charNr + 1 + 1]? with
        | none =>
          dsimp only
          rw [wp_unexpectedEOF]
          exact clean_err rfl
        | some d2 =>
          dsimp only
          have hdd := drop_eq_cons hq
          have hs' : d = c%'+' ∨ d = c%'-' := by simpa using hs
          rcases hs' with rfl | rfl
          · exact go { s1 with charNr := s.charNr + 1 + 1 } [c%'+'] false d2 h1 hq2 .plus hdd
          · exact go { s1 with charNr := s.charNr + 1 + 1 } [c%'-'] true d2 h1 hq2 .neg hdd
      refine wp_if (fun hm => ?_) (fun hm => ?_)
      · rw [wp_bind, wp_emit]
        exact key _ rfl rfl
      · exact key _ rfl rfl
    · exact go { s with res := _, charNr := s.charNr + 1 } [] false d rfl hq .none rfl

/-- From `n` to `n'` there is a number without its sign. -/
def NumTo (q : Bytes) (n n' : Nat) : Prop := ∃ int i frac f exp e, DigitRun i int ∧
  (frac = none ∧ f = [] ∨ ∃ ds t, frac = some ds ∧ f = c%'.' :: t ∧ DigitRun t ds) ∧
  (exp = none ∧ e = [] ∨ ∃ neg ds l s t, exp = some (neg, ds) ∧ (l = c%'e' ∨ l = c%'E') ∧ SignSpell neg s ∧
        DigitRun t ds ∧ e = l :: (s ++ t)) ∧ q.drop n = i ++ f ++ e ++ q.drop n'

theorem parseNumberTail_text {cfg s st vt c} (hc : cfg.query[s.charNr]? = some c) :
    wp True (parseNumberTail st vt c) cfg s (fun crit s' => Clean s s' (crit = false ∧ ∃ n, NumTo cfg.query s.charNr n ∧
      After cfg.query n s'.charNr)) := by
  unfold parseNumberTail
  rw [wp_bind, wp_loopFuel, wp_bind]
  refine wp_mono (intLoop_text _ s c hc) ?_
  rintro r s1 (⟨crit, rfl, h⟩ | ⟨d, rfl, h1, ⟨run, ds, h2, h2'⟩, h3, h4⟩)
  · rw [wp_pure]
    refine h.mono rfl ?_
    rintro ⟨h1, n, ⟨run, ds, h2, h3⟩, h4⟩
    exact ⟨h1, n, ⟨ds, run, none, [], none, [], h2, .inl ⟨rfl, rfl⟩, .inl ⟨rfl, rfl⟩, by simpa using h3⟩, h4⟩
  · dsimp only
    refine wp_if (fun hdot => ?_) (fun hdot => ?_)
    · have : d = c%'.' := by simpa using hdot
      subst this
      have hdd := drop_eq_cons h3
      rw [wp_bind, wp_setRes]
      split
      case isFalse => trivial
      rw [wp_bind, wp_emit, wp_bind, wp_loopFuel, wp_bind]
      refine wp_mono (fracLoop_text _ _) ?_
      rintro r s2 (⟨crit, rfl, h⟩ | ⟨d, rfl, k1, ⟨run2, ds2, k2, k2'⟩, k3, k4⟩)
      · rw [wp_pure]
        refine h.mono h1 ?_
        rintro ⟨hcr, n, ⟨run2, ds2, h5, h6⟩, h7⟩
        refine ⟨hcr, n, ⟨ds, run, some ds2, c%'.' :: run2, none, [], h2, .inr ⟨ds2, run2, rfl, rfl, h5⟩, .inl ⟨rfl, rfl⟩, ?_⟩, h7⟩
        rw [h2', hdd, h6]
        simp
      · dsimp only
        refine wp_mono (parseExponent_text k3 k4) ?_
        intro crit s3 h
        refine h.mono (k1.trans h1) ?_
        rintro ⟨hcr, n, ⟨neg, ds3, l, sg, t, e1, e2, e3, e4⟩, h7⟩
        refine ⟨hcr, n, ⟨ds, run, some ds2, c%'.' :: run2, some (neg, ds3), l :: (sg ++ t), h2, .inr ⟨ds2, run2, rfl, rfl, k2⟩,
          .inr ⟨neg, ds3, l, sg, t, rfl, e1, e2, e3, rfl⟩, ?_⟩, h7⟩
        rw [h2', hdd, k2', e4]
        simp
    · have hd : d = c%'e' ∨ d = c%'E' := by
        rcases h4 with rfl | h4
        · simp at hdot
        · exact h4
      refine wp_mono (parseExponent_text h3 hd) ?_
      intro crit s3 h
      refine h.mono h1 ?_
      rintro ⟨hcr, n, ⟨neg, ds3, l, sg, t, e1, e2, e3, e4⟩, h7⟩
      refine ⟨hcr, n, ⟨ds, run, none, [], some (neg, ds3), l :: (sg ++ t), h2, .inl ⟨rfl, rfl⟩,
        .inr ⟨neg, ds3, l, sg, t, rfl, e1, e2, e3, rfl⟩, ?_⟩, h7⟩
      rw [h2', e4]
      simp

theorem numTo_spell {q : Bytes} {n n' : Nat} (h : NumTo q n n') {neg : Bool} {sg : Bytes} (hs : SignSpell neg sg) {m : Nat}
    (hm : q.drop m = sg ++ q.drop n) {c : Byte} (hc : q[m]? = some c)
    (hst : c = c%'-' ∨ c = c%'+' ∨ c = c%'.' ∨ c%'0' ≤ c ∧ c ≤ c%'9') (hstop : ∀ d, q[n']? = some d → ¬ (d = c%'-' ∨ d = c%'+' ∨ d = c%'.' ∨ c%'0' ≤ d ∧ d ≤ c%'9')) :
    ∃ num sp, NumSpell num sp ∧ q.drop m = sp ++ q.drop n' := by
  obtain ⟨int, i, frac, f, exp, e, h1, h2, h3, h4⟩ := h
  have heq : q.drop m = (sg ++ i ++ f ++ e) ++ q.drop n' := by rw [hm, h4]; simp
  refine ⟨⟨neg, int, frac, exp⟩, sg ++ i ++ f ++ e, .mk hs h1 h2 h3 ?_, heq⟩
  have hcm := drop_eq_cons hc
  rw [heq] at hcm
  cases hx : sg ++ i ++ f ++ e with
  | nil =>
    rw [hx, List.nil_append] at hcm
    exact absurd hst (hstop c (get_of_drop hcm))
  | cons d r =>
    rw [hx, List.cons_append] at hcm
    injection hcm with hcm _
    exact ⟨d, r, rfl, hcm ▸ hst⟩

theorem numStop_not {c : Byte} (h : NumStop c) (hd : c ≠ c%'.') : NumSep c := by
  unfold NumStop IgnStart Blank at h
  unfold NumSep Blank
  rcases h with h | (h | h) | h
  · simp only [isPunctuator, Bool.or_eq_true, beq_iff_eq] at h
    grind
  · exact .inl h
  · exact .inr (.inl h)
  · exact .inr (.inr (.inl h))

theorem parseNumber_text {cfg s c} (hc : cfg.query[s.charNr]? = some c)
    (hst : c = c%'-' ∨ c = c%'+' ∨ c = c%'.' ∨ c%'0' ≤ c ∧ c ≤ c%'9') :
    wp True parseNumberInputValue cfg s (fun crit s' => Clean s s' (crit = false ∧ (s'.charNr < cfg.query.length →
      ∃ num, Reads cfg.query s.charNr s'.charNr [.num num]))) := by
  have fin : ∀ {n n' p : Nat} {neg : Bool} {sg : Bytes}, NumTo cfg.query n n' → SignSpell neg sg →
      cfg.query.drop s.charNr = sg ++ cfg.query.drop n → After cfg.query n' p →
      p < cfg.query.length → ∃ num, Reads cfg.query s.charNr p [.num num] := by
    intro n n' p neg sg h hs hm ⟨⟨d, hd, hd1, hd2⟩, ha⟩ hp
    have hsep := numStop_not hd1 hd2
    obtain ⟨num, sp, h1, h2⟩ := numTo_spell h hs hm hc hst (by
      intro d' hd'
      rw [hd] at hd'
      injection hd' with hd'
      subst hd'
      rintro (rfl | rfl | rfl | hdd)
      · revert hsep; unfold NumSep Blank; decide
      · revert hsep; unfold NumSep Blank; decide
      · exact hd2 rfl
      · have := hsep.facts.2.1
        simp [isDigit] at this
        exact absurd hdd.2 (by have := this hdd.1; exact UInt8.not_le.mpr this))
    refine ⟨num, Reads.skip (Reads.tok trivial (.num h1) h2 ?_) (ha hp)⟩
    intro d' r hr
    rw [drop_eq_cons hd] at hr
    injection hr with hr _
    exact hr ▸ hsep
  unfold parseNumberInputValue instructionNewValueInt
  rw [wp_bind, wp_emit, wp_bind, wp_resLen, wp_bind, wp_resLen, wp_bind, wp_currentC]
  dsimp only
  rw [hc]
  dsimp only
  have hdc := drop_eq_cons hc
  have key : ∀ (s1 : PS) (neg : Bool) (sg : Bytes) (m k : Nat), s1.errs = s.errs → s1.charNr = s.charNr + 1 → SignSpell neg sg → sg = [c] →
      wp True (do
        match ← checkC (← getPos) with
        | none => unexpectedEOF
        | some c => parseNumberTail m k c) cfg s1 (fun crit s' => Clean s s' (crit = false ∧ (s'.charNr < cfg.query.length →
      ∃ num, Reads cfg.query s.charNr s'.charNr [.num num]))) := by
    intro s1 neg sg m k he hn hs hsg
    rw [wp_bind, wp_getPos, wp_bind, wp_checkC]
    rw [hn]
    cases hq : cfg.query[s.charNr + 1]? with
    | none =>
      dsimp only
      rw [wp_unexpectedEOF]
      exact clean_err rfl
    | some d =>
      refine wp_mono (parseNumberTail_text (by rw [hn]; exact hq)) ?_
      intro crit s' h
      refine h.mono he ?_
      rintro ⟨h1, n', h2, h3⟩
      exact ⟨h1, fin h2 hs (by rw [hn, hdc, hsg]; rfl) h3⟩
  refine wp_if (fun h1 => ?_) (fun h1 => ?_)
  · rw [wp_bind, wp_incPos, wp_bind, wp_emit]
    exact key _ true [c%'-'] _ _ rfl rfl .neg ((by simpa using h1 : c = c%'-') ▸ rfl)
  · refine wp_if (fun h2 => ?_) (fun h2 => ?_)
    · rw [wp_bind, wp_incPos]
      exact key _ false [c%'+'] _ _ rfl rfl .plus ((by simpa using h2 : c = c%'+') ▸ rfl)
    · refine wp_mono (parseNumberTail_text (by exact hc)) ?_
      intro crit s' h
      refine h.mono rfl ?_
      rintro ⟨h1, n', h2, h3⟩
      exact ⟨h1, fin h2 .none rfl h3⟩

end Parser
end Yarql
