import Verif.Proofs.TextNum

/-! # Accepted texts are documents: strings -/

namespace Yarql
namespace Parser
open Grammar Doc

theorem hexVal_text {c x : Byte} (h : hexVal c = some x) : HexDigit c x.toNat := by
  unfold hexVal at h
  split at h
  case isTrue h1 =>
    simp only [Bool.and_eq_true, decide_eq_true_eq] at h1
    injection h with h
    subst h
    rw [UInt8.toNat_sub_of_le _ _ h1.1]
    exact .dec h1.1 h1.2
  case isFalse h0 =>
    split at h
    case isTrue h1 =>
      simp only [Bool.and_eq_true, decide_eq_true_eq] at h1
      injection h with h
      subst h
      have h3 := UInt8.le_iff_toNat_le.mp h1.1
      have h4 := UInt8.le_iff_toNat_le.mp h1.2
      simp at h3 h4
      have : (c - 97 + 10).toNat = c.toNat - 87 := by
        rw [UInt8.toNat_add, UInt8.toNat_sub_of_le _ _ h1.1]
        simp; omega
      rw [this]
      exact .low h1.1 h1.2
    case isFalse h2 =>
      split at h
      case isTrue h1 =>
        simp only [Bool.and_eq_true, decide_eq_true_eq] at h1
        injection h with h
        subst h
        have h3 := UInt8.le_iff_toNat_le.mp h1.1
        have h4 := UInt8.le_iff_toNat_le.mp h1.2
        simp at h3 h4
        have : (c - 65 + 10).toNat = c.toNat - 55 := by
          rw [UInt8.toNat_add, UInt8.toNat_sub_of_le _ _ h1.1]
          simp; omega
        rw [this]
        exact .upp h1.1 h1.2
      case isFalse => cases h

theorem drop_one {q : Bytes} {n : Nat} {c : Byte} (h : q[n]? = some c) : q.drop n = [c] ++ q.drop (n + 1) := drop_eq_cons h

theorem get_lt {q : Bytes} {n m : Nat} {c : Byte} (h : q[n]? = some c) (hm : m ≤ n) : ∃ d, q[m]? = some d :=
  ⟨q[m]'(Nat.lt_of_le_of_lt hm (query_lt h)), List.getElem?_eq_getElem _⟩

theorem parseEscape_text {cfg s} : wp True parseEscape cfg s (fun r s' =>
    (r = some true ∧ ∃ l e, s'.errs = l ++ [e]) ∨
    (r = none ∧ s'.errs = s.errs ∧ ∃ e d, Escape e d ∧ cfg.query.drop (s.charNr + 1) = e ++ cfg.query.drop (s'.charNr + 1))) := by
  unfold parseEscape
  rw [wp_bind, wp_incPos, wp_bind, wp_getPos, wp_bind, wp_checkC]
  dsimp only
  cases hc : cfg.query[s.charNr + 1]? with
  | none =>
    dsimp only
    rw [wp_bind, wp_unexpectedEOF, wp_pure]
    exact .inl ⟨rfl, _, _, rfl⟩
  | some c =>
    dsimp only
    refine wp_if (fun h0 => ?_) (fun h0 => ?_)
    · have : c = 0 := by simpa using h0
      subst this
      rw [wp_pure]
      exact .inr ⟨rfl, rfl, [0], [], .nul, drop_one hc⟩
    refine wp_if (fun h1 => ?_) (fun h1 => ?_)
    · rw [wp_bind, wp_err, wp_pure]
      exact .inl ⟨rfl, _, _, rfl⟩
    refine wp_if (fun h2 => ?_) (fun h2 => ?_)
    · have : c = c%'b' := by simpa using h2
      subst this
      rw [wp_bind, wp_emit, wp_pure]
      exact .inr ⟨rfl, rfl, _, _, .b, drop_one hc⟩
    refine wp_if (fun h3 => ?_) (fun h3 => ?_)
    · have : c = c%'f' := by simpa using h3
      subst this
      rw [wp_bind, wp_emit, wp_pure]
      exact .inr ⟨rfl, rfl, _, _, .f, drop_one hc⟩
    refine wp_if (fun h4 => ?_) (fun h4 => ?_)
    · have : c = c%'n' := by simpa using h4
      subst this
      rw [wp_bind, wp_emit, wp_pure]
      exact .inr ⟨rfl, rfl, _, _, .n, drop_one hc⟩
    refine wp_if (fun h5 => ?_) (fun h5 => ?_)
    · have : c = c%'r' := by simpa using h5
      subst this
      rw [wp_bind, wp_emit, wp_pure]
      exact .inr ⟨rfl, rfl, _, _, .r, drop_one hc⟩
    refine wp_if (fun h6 => ?_) (fun h6 => ?_)
    · have : c = c%'t' := by simpa using h6
      subst this
      rw [wp_bind, wp_emit, wp_pure]
      exact .inr ⟨rfl, rfl, _, _, .t, drop_one hc⟩
    refine wp_if (fun h7 => ?_) (fun h7 => ?_)
    · have : c = c%'u' := by simpa using h7
      subst this
      simp only [wp_bind, wp_incPos, wp_getPos, wp_checkC]
      cases hc4 : cfg.query[s.charNr + 1 + 1 + 1 + 1 + 1]? with
      | none =>
        dsimp only
        rw [wp_bind, wp_unexpectedEOF, wp_pure]
        exact .inl ⟨rfl, _, _, rfl⟩
      | some c4 =>
        obtain ⟨c3, hc3⟩ := get_lt hc4 (m := s.charNr + 1 + 1 + 1 + 1) (by omega)
        obtain ⟨c2, hc2⟩ := get_lt hc4 (m := s.charNr + 1 + 1 + 1) (by omega)
        obtain ⟨c1, hc1⟩ := get_lt hc4 (m := s.charNr + 1 + 1) (by omega)
        simp only [hc1, hc2, hc3, Option.getD_some]
        cases hh : hex4 c1 c2 c3 c4 with
        | none =>
          dsimp only
          rw [wp_bind, wp_err, wp_pure]
          exact .inl ⟨rfl, _, _, rfl⟩
        | some u =>
          dsimp only
          rw [wp_bind, wp_emit, wp_pure]
          unfold hex4 at hh
          cases e1 : hexVal c1 with
          | none => rw [e1] at hh; cases hh
          | some x1 =>
          cases e2 : hexVal c2 with
          | none => rw [e1, e2] at hh; cases hh
          | some x2 =>
          cases e3 : hexVal c3 with
          | none => rw [e1, e2, e3] at hh; cases hh
          | some x3 =>
          cases e4 : hexVal c4 with
          | none => rw [e1, e2, e3, e4] at hh; cases hh
          | some x4 =>
          refine .inr ⟨rfl, rfl, _, _, .u (hexVal_text e1) (hexVal_text e2) (hexVal_text e3) (hexVal_text e4), ?_⟩
          rw [drop_eq_cons hc, drop_eq_cons hc1, drop_eq_cons hc2, drop_eq_cons hc3, drop_eq_cons hc4]
          rfl
    · rw [wp_bind, wp_emit, wp_pure]
      simp only [beq_iff_eq, Bool.or_eq_true] at h0 h1 h2 h3 h4 h5 h6 h7
      exact .inr ⟨rfl, rfl, [c], [c], .other h0 h1 h2 h3 h4 h5 h6 h7, drop_one hc⟩

theorem stringLoop_text {cfg st} : ∀ (fuel : Nat) (s : PS), wp True (stringLoop false st fuel) cfg s (fun crit s' =>
    Clean s s' (crit = false ∧ ∃ t v, StrChars t v ∧ cfg.query.drop (s.charNr + 1) = t ++ c%'"' :: cfg.query.drop s'.charNr))
  | 0, _ => by unfold stringLoop; trivial
  | fuel + 1, s => by
    unfold stringLoop
    rw [wp_bind, wp_incPos, wp_bind, wp_getPos, wp_bind, wp_checkC]
    dsimp only
    cases hc : cfg.query[s.charNr + 1]? with
    | none =>
      dsimp only
      rw [wp_unexpectedEOF]
      exact clean_err rfl
    | some c =>
      dsimp only
      have hd := drop_eq_cons hc
      refine wp_if (fun h0 => ?_) (fun h0 => ?_)
      · have : c = 0 := by simpa using h0
        subst this
        refine wp_mono (stringLoop_text fuel _) ?_
        intro crit s' h
        refine h.mono rfl ?_
        rintro ⟨h1, t, v, h2, h3⟩
        exact ⟨h1, 0 :: t, v, .nul h2, by rw [hd]; simpa using h3⟩
      refine wp_if (fun h1 => ?_) (fun h1 => ?_)
      · rw [if_pos (by simp), wp_err]
        exact clean_err rfl
      have hnl : ¬ LineEnd c := by simpa [LineEnd] using h1
      refine wp_if (fun h2 => ?_) (fun h2 => ?_)
      · have : c = c%'"' := by simpa using h2
        subst this
        rw [if_pos (by simp), wp_bind, wp_incPos, wp_bind]
        refine wp_mono closeLen_text ?_
        rintro _ s2 ⟨h4, h5⟩
        rw [wp_pure]
        exact .of h5 ⟨rfl, [], [], .nil, by rw [h4, hd]; rfl⟩
      refine wp_if (fun h3 => ?_) (fun h3 => ?_)
      · have : c = c%'\\' := by simpa using h3
        subst this
        rw [wp_bind]
        refine wp_mono parseEscape_text ?_
        rintro r s1 (⟨rfl, l, e, h⟩ | ⟨rfl, h4, e, d, h5, h6⟩)
        · exact clean_err h
        · dsimp only
          refine wp_mono (stringLoop_text fuel _) ?_
          intro crit s' h
          refine h.mono h4 ?_
          rintro ⟨h1, t, v, h2, h3⟩
          refine ⟨h1, _, _, .esc h5 h2, ?_⟩
          rw [hd, h6, h3]
          simp
      · rw [wp_bind, wp_emit]
        refine wp_mono (stringLoop_text fuel _) ?_
        intro crit s' h
        refine h.mono rfl ?_
        rintro ⟨h4, t, v, h5, h6⟩
        exact ⟨h4, c :: t, c :: v, .plain (by simpa using h0) hnl (by simpa using h2) (by simpa using h3) h5, by rw [hd]; simpa using h6⟩

theorem blockTrimStart_text {cfg} : ∀ (fuel : Nat) (s : PS), wp True (blockTrimStart fuel) cfg s (fun r s' =>
    (r = some true ∧ ∃ l e, s'.errs = l ++ [e]) ∨
    (r = none ∧ s'.errs = s.errs ∧ ∃ pad c, (∀ x ∈ pad, BlockBlank x) ∧ cfg.query[s'.charNr + 1]? = some c ∧ ¬ BlockBlank c ∧
      cfg.query.drop s.charNr = pad ++ cfg.query.drop (s'.charNr + 1)))
  | 0, _ => by unfold blockTrimStart; trivial
  | fuel + 1, s => by
    unfold blockTrimStart
    rw [wp_bind, wp_getPos, wp_bind, wp_checkC]
    cases hc : cfg.query[s.charNr]? with
    | none =>
      dsimp only
      rw [wp_bind, wp_unexpectedEOF, wp_pure]
      exact .inl ⟨rfl, _, _, rfl⟩
    | some c =>
      dsimp only
      refine wp_if (fun h => ?_) (fun h => ?_)
      · rw [wp_bind, wp_incPos]
        refine wp_mono (blockTrimStart_text fuel _) ?_
        rintro r s' (h' | ⟨rfl, h1, pad, d, h2, h3, h4, h5⟩)
        · exact .inl h'
        · refine .inr ⟨rfl, h1, c :: pad, d, ?_, h3, h4, by rw [drop_eq_cons hc]; simpa using h5⟩
          intro x hx
          rcases List.mem_cons.mp hx with rfl | hx
          · simpa [BlockBlank, or_assoc] using h
          · exact h2 x hx
      · rw [wp_bind, wp_decCharNr]
        split
        · trivial
        · rw [wp_pure]
          have hn : s.charNr - 1 + 1 = s.charNr := by rename_i h0; omega
          exact .inr ⟨rfl, rfl, [], c, by simp, by simpa only [hn] using hc, by simpa [BlockBlank, or_assoc] using h, by
            dsimp only; rw [hn]; rfl⟩

theorem blockIndent_text {cfg} : ∀ (fuel : Nat) (s : PS), wp True (blockIndent fuel) cfg s (fun r s' =>
    (r = some true ∧ ∃ l e, s'.errs = l ++ [e]) ∨
    (r = none ∧ s'.errs = s.errs ∧ ∃ ind c, (∀ x ∈ ind, x = c%' ' ∨ x = c%'\t') ∧ cfg.query[s'.charNr + 1]? = some c ∧
      ¬ (c = c%' ' ∨ c = c%'\t') ∧ cfg.query.drop (s.charNr + 1) = ind ++ cfg.query.drop (s'.charNr + 1)))
  | 0, _ => by unfold blockIndent; trivial
  | fuel + 1, s => by
    unfold blockIndent
    rw [wp_bind, wp_incPos, wp_bind, wp_getPos, wp_bind, wp_checkC]
    dsimp only
    cases hc : cfg.query[s.charNr + 1]? with
    | none =>
      dsimp only
      rw [wp_bind, wp_unexpectedEOF, wp_pure]
      exact .inl ⟨rfl, _, _, rfl⟩
    | some c =>
      dsimp only
      refine wp_if (fun h => ?_) (fun h => ?_)
      · refine wp_mono (blockIndent_text fuel _) ?_
        rintro r s' (h' | ⟨rfl, h1, pad, d, h2, h3, h4, h5⟩)
        · exact .inl h'
        · refine .inr ⟨rfl, h1, c :: pad, d, ?_, h3, h4, by rw [drop_eq_cons hc]; simpa using h5⟩
          intro x hx
          rcases List.mem_cons.mp hx with rfl | hx
          · simpa using h
          · exact h2 x hx
      · rw [wp_bind, wp_decCharNr]
        split
        · trivial
        · rw [wp_pure]
          exact .inr ⟨rfl, rfl, [], c, by simp, hc, by simpa using h, rfl⟩

theorem blockTrimEnd_text {cfg} : ∀ (fuel : Nat) (s : PS), wp True (blockTrimEnd fuel) cfg s (fun _ s' =>
    s'.charNr = s.charNr ∧ s'.errs = s.errs)
  | 0, _ => by unfold blockTrimEnd; trivial
  | fuel + 1, s => by
    unfold blockTrimEnd
    rw [wp_bind, wp_resLen]
    refine wp_if (fun h => trivial) (fun h => ?_)
    rw [wp_bind, wp_getRes]
    cases s.res[s.res.length - 1]? with
    | none => trivial
    | some x =>
      dsimp only
      refine wp_if (fun h => ?_) (fun h => ?_)
      · rw [wp_bind, wp_truncRes]
        split
        · refine wp_mono (blockTrimEnd_text fuel _) ?_
          rintro _ s' ⟨h1, h2⟩
          exact ⟨h1, h2⟩
        · trivial
      · exact ⟨rfl, rfl⟩

/-- What the rest of a block string is, read from the character behind `n`. -/
def BlockTo (q : Bytes) (n n' : Nat) : Prop := ∃ t v, BlockTail t v ∧ q.drop (n + 1) = t ++ q.drop n'

theorem blockLoop_text {cfg st} : ∀ (fuel : Nat) (s : PS), wp True (stringLoop true st fuel) cfg s (fun crit s' =>
    Clean s s' (crit = false ∧ BlockTo cfg.query s.charNr s'.charNr))
  | 0, _ => by unfold stringLoop; trivial
  | fuel + 1, s => by
    unfold stringLoop
    rw [wp_bind, wp_incPos, wp_bind, wp_getPos, wp_bind, wp_checkC]
    dsimp only
    cases hc : cfg.query[s.charNr + 1]? with
    | none =>
      dsimp only
      rw [wp_unexpectedEOF]
      exact clean_err rfl
    | some c =>
      dsimp only
      have hd := drop_eq_cons hc
      refine wp_if (fun h0 => ?_) (fun h0 => ?_)
      · have : c = 0 := by simpa using h0
        subst this
        refine wp_mono (blockLoop_text fuel _) ?_
        intro crit s' h
        refine h.mono rfl ?_
        rintro ⟨h1, t, v, h2, h3⟩
        exact ⟨h1, 0 :: t, v, .nul h2, by rw [hd]; simpa using h3⟩
      refine wp_if (fun h1 => ?_) (fun h1 => ?_)
      · rw [if_neg (by simp), wp_bind, wp_emit]
        -- after the line break
        have key : ∀ (lb : Bytes) (s1 : PS), s1.errs = s.errs → cfg.query.drop (s.charNr + 1) = lb ++ cfg.query.drop (s1.charNr + 1) →
            (lb = [c%'\n'] ∨ lb = [c%'\r', c%'\n'] ∨ (lb = [c%'\r'] ∧ Stops (· = c%'\n') (cfg.query.drop (s1.charNr + 1)))) →
            wp True (do
              match ← blockIndent (← loopFuel) with
              | some crit => return crit
              | none => stringLoop true st fuel) cfg s1 (fun crit s' =>
                Clean s s' (crit = false ∧ BlockTo cfg.query s.charNr s'.charNr)) := by
          intro lb s1 he hlb hkind
          rw [wp_bind, wp_loopFuel, wp_bind]
          refine wp_mono (blockIndent_text _ s1) ?_
          rintro r s2 (⟨rfl, l, e, h⟩ | ⟨rfl, h1, ind, d, h2, h3, h4, h5⟩)
          · exact clean_err h
          · dsimp only
            refine wp_mono (blockLoop_text fuel _) ?_
            intro crit s' h
            refine h.mono (h1.trans he) ?_
            rintro ⟨h6, t, v, h7, h8⟩
            refine ⟨h6, lb ++ (ind ++ t), lb ++ v, .line ?_ h2 ?_ h7, ?_⟩
            · rcases hkind with h | h | ⟨h, h'⟩
              · exact .inl h
              · exact .inr (.inl h)
              · refine .inr (.inr ⟨h, ?_⟩)
                intro x r hx
                refine h' x (r ++ cfg.query.drop s'.charNr) ?_
                rw [h5, h8, ← List.append_assoc, hx]
                rfl
            · intro x r hx hb
              rw [hx] at h8
              have := get_of_drop (h8 : _ = x :: (r ++ _))
              rw [h3] at this
              injection this with this
              subst this
              exact h4 hb
            · rw [hlb, h5, h8]
              simp
        refine wp_if (fun h2 => ?_) (fun h2 => ?_)
        · have : c = c%'\r' := by simpa using h2
          subst this
          rw [wp_bind, wp_getPos, wp_bind, wp_checkC]
          dsimp only
          refine wp_if (fun h3 => ?_) (fun h3 => ?_)
          · have hn : cfg.query[s.charNr + 1 + 1]? = some c%'\n' := by simpa using h3
            rw [wp_bind, wp_emit, wp_bind, wp_incPos]
            exact key [c%'\r', c%'\n'] _ rfl (by rw [hd, drop_eq_cons hn]; rfl) (.inr (.inl rfl))
          · exact key [c%'\r'] _ rfl hd (.inr (.inr ⟨rfl, by
              intro x r hx hx'
              subst hx'
              exact h3 (by rw [get_of_drop hx]; rfl)⟩))
        · have : c = c%'\n' := by
            simp only [Bool.or_eq_true, beq_iff_eq] at h1 h2
            exact h1.resolve_right h2
          subst this
          exact key [c%'\n'] _ rfl hd (.inl rfl)
      have hnl : ¬ LineEnd c := by simpa [LineEnd] using h1
      have rest : ∀ (s1 : PS), s1.errs = s.errs → s1.charNr = s.charNr + 1 → (c = c%'"' → ¬ At cfg.query (s.charNr + 1) b%"\"\"\"") →
          wp True (do
          if c == c%'\\' then
            match ← parseEscape with
            | some crit => return crit
            | none => stringLoop true st fuel
          else
            emit [c]
            stringLoop true st fuel) cfg s1 (fun crit s' =>
                Clean s s' (crit = false ∧ BlockTo cfg.query s.charNr s'.charNr)) := by
        intro s1 he hn hq
        refine wp_if (fun h3 => ?_) (fun h3 => ?_)
        · have : c = c%'\\' := by simpa using h3
          subst this
          rw [wp_bind]
          refine wp_mono parseEscape_text ?_
          rintro r s2 (⟨rfl, l, e, h⟩ | ⟨rfl, h4, e, d, h5, h6⟩)
          · exact clean_err h
          · dsimp only
            refine wp_mono (blockLoop_text fuel _) ?_
            intro crit s' h
            refine h.mono (h4.trans he) ?_
            rintro ⟨h1, t, v, h2, h3⟩
            refine ⟨h1, _, _, .esc h5 h2, ?_⟩
            rw [hn] at h6
            rw [hd, h6, h3]
            simp
        · rw [wp_bind, wp_emit]
          refine wp_mono (blockLoop_text fuel _) ?_
          intro crit s' h
          refine h.mono he ?_
          rintro ⟨h4, t, v, h5, h6⟩
          dsimp only at h6
          rw [hn] at h6
          by_cases hqu : c = c%'"'
          · subst hqu
            refine ⟨h4, _, _, .quote ?_ h5, by rw [hd, h6]; rfl⟩
            rintro r rfl
            refine hq rfl (at_iff_prefix.mpr ⟨r ++ cfg.query.drop s'.charNr, ?_⟩)
            rw [hd, h6]
            rfl
          · exact ⟨h4, c :: t, c :: v, .plain (by simpa using h0) hnl hqu (by simpa using h3) h5, by rw [hd, h6]; rfl⟩
      refine wp_if (fun h2 => ?_) (fun h2 => ?_)
      · have : c = c%'"' := by simpa using h2
        subst this
        rw [if_neg (by simp), wp_bind]
        refine wp_mono (matchesKw1 b%"\"\"\"" (by simp)) ?_
        rintro r s2 (⟨rfl, rfl, h⟩ | ⟨rfl, hat, rfl⟩)
        · rw [if_neg (by decide)]
          exact rest _ rfl rfl (fun _ => h)
        · rw [if_pos (by decide), wp_bind, wp_resLen, wp_bind]
          refine wp_mono (blockTrimEnd_text _ _) ?_
          rintro _ s3 ⟨h3, h4⟩
          rw [wp_bind]
          refine wp_mono closeLen_text ?_
          rintro _ s4 ⟨h5, h6⟩
          rw [wp_pure]
          refine .of (h6.trans h4) ⟨rfl, b%"\"\"\"", [], .close, ?_⟩
          rw [h5, h3]
          exact hat.drop
      · exact rest _ rfl rfl (fun h => absurd h (by simpa using h2))

theorem parseString_text {cfg s} (hc : cfg.query[s.charNr]? = some c%'"') :
    wp True parseStringInputValue cfg s (fun crit s' => Clean s s' (crit = false ∧
      ∃ v, Reads cfg.query s.charNr s'.charNr [.str v])) := by
  unfold parseStringInputValue instructionNewValueString
  rw [wp_bind, wp_emit, wp_bind, wp_resLen, wp_bind]
  refine wp_mono (matchesKw1 b%"\"\"\"" (by simp)) ?_
  rintro r s2 (⟨rfl, rfl, hno⟩ | ⟨rfl, hat, rfl⟩)
  · rw [if_neg (by decide), wp_bind, wp_loopFuel]
    refine wp_mono (stringLoop_text _ _) ?_
    intro crit s' h
    refine h.mono rfl ?_
    rintro ⟨h1, t, v, h2, h3⟩
    dsimp only at h3
    refine ⟨h1, v, .tok trivial (.str h2) (by rw [drop_eq_cons hc, h3]; simp) ?_⟩
    intro hsp d r hr hd
    subst hd
    have ht : t = [] := by
      cases t with
      | nil => rfl
      | cons x t =>
        have := congrArg List.length hsp
        simp at this
    subst ht
    refine hno (at_iff_prefix.mpr ⟨r, ?_⟩)
    dsimp only
    rw [drop_eq_cons hc, h3, hr]
    rfl
  · rw [if_pos (by decide), wp_bind, wp_loopFuel, wp_bind]
    refine wp_mono (blockTrimStart_text _ _) ?_
    rintro r s3 (⟨rfl, l, e, h⟩ | ⟨rfl, h1, pad, d, h2, h3, h4, h5⟩)
    · exact clean_err h
    · dsimp only
      rw [wp_bind, wp_loopFuel]
      refine wp_mono (blockLoop_text _ _) ?_
      intro crit s' h
      refine h.mono h1 ?_
      rintro ⟨h6, t, v, h7, h8⟩
      refine ⟨h6, trimEnd v, .tok trivial (.block h2 ?_ h7) ?_ ?_⟩
      · intro x r hx hb
        rw [hx] at h8
        have := get_of_drop (h8 : _ = x :: (r ++ _))
        rw [h3] at this
        injection this with this
        subst this
        exact h4 hb
      · have := hat.drop
        dsimp only at this h5
        rw [this, h5, h8]
        simp
      · intro hsp
        have := congrArg List.length hsp
        have := BlockTail.len h7
        simp at *

end Parser
end Yarql
