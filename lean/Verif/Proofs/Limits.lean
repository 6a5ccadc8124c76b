import Verif.Proofs.DocComplete

/-! # Beyond the limits: names over 254 characters, more than 255 directives -/

namespace Yarql
namespace Parser
open Grammar Doc

/-- A parser function stopped with an error. -/
def Failed (s : PS) (s' : PS) : Prop := ∃ e, s'.errs = s.errs ++ [e]

theorem parseDirectives_overflow {cfg} : ∀ (fuel : Nat) (s : PS) (n : UInt8) (ds : List Directive) (td rest : List Tok), DirsT ds td →
    255 < n.toNat + ds.length → rest ≠ [] →
    Rem cfg s.charNr (td ++ rest) → wp True (parseDirectives fuel n) cfg s (fun r s' => r.2 = true ∧ Failed s s')
  | 0, _, _, _, _, _, _, _, _, _ => trivial
  | fuel + 1, s, n, ds, td, rest, hd, hn, hne, hrem => by
    unfold parseDirectives
    rw [wp_bind]
    refine wp_mono (mightIgnore_toks hrem (by simp [hne])) ?_
    rintro _ _ ⟨c, p, rfl, rfl, hq, hats⟩
    dsimp only
    cases hd with
    | nil =>
      have := n.toNat_lt
      simp at hn; omega
    | @cons m a ta ds td' hm ha hds =>
      have hat1 := AtToks.inv hats
      obtain ⟨hq1, hat2⟩ := hat1.sigil
      rw [hq] at hq1
      cases hq1
      rw [if_neg (by decide)]
      by_cases hneq : (n == 255) = true
      · rw [if_pos hneq, wp_bind, wp_err, wp_pure]
        exact ⟨rfl, _, rfl⟩
      rw [if_neg hneq]
      unfold instructionNewDirective
      rw [wp_bind, wp_incPos, wp_bind, wp_emit, wp_bind, wp_resLen, wp_bind]
      dsimp only
      have hcons : ∃ y l, (ta ++ (td' ++ rest)) = y :: l := by
        cases h : ta ++ (td' ++ rest) with
        | nil => simp at h; exact absurd h.2.2 hne
        | cons y l => exact ⟨y, l, rfl⟩
      obtain ⟨y, l, hyl⟩ := hcons
      refine wp_mono (parseName_tok (s := { s with res := s.res ++ [0, c%'d', c%'f'], charNr := p + 1 }) (n := m) (t := y) (ts := l)
        (by rw [← hyl]; simpa using hat2)) ?_
      rintro ⟨k, crit⟩ s' ⟨rfl, _, h0, _, rfl, hrem2⟩
      simp only [Bool.false_eq_true, if_false] at h0 ⊢
      rw [h0, if_neg (by simp), wp_bind]
      rw [← hyl] at hrem2
      refine wp_mono (mightIgnore_toks hrem2 (by rw [hyl]; simp)) ?_
      rintro _ _ ⟨c, p2, rfl, rfl, hq2, hats2⟩
      dsimp only
      have hn' : 255 < (n + 1).toNat + ds.length := by rw [u8_succ hneq]; simp at hn; omega
      cases ha with
      | none =>
        cases hds with
        | nil =>
          have := (n + 1).toNat_lt
          simp at hn'; omega
        | @cons m' a' ta' ds' td'' h1 h2 h3 =>
          have hnp : HeadNot [c%'('] (.sigil c%'@' m' :: (ta' ++ td'') ++ rest) := by
            intro x r c h1 h2
            cases h1
            cases h2
            decide
          have := hats2.not hnp hq2
          rw [if_pos (by simpa using this)]
          refine wp_mono (parseDirectives_overflow fuel _ (n + 1) _ _ rest (DirsT.cons h1 h2 h3) hn' hne hats2.rem) ?_
          rintro r s' ⟨h1, e, h2⟩
          exact ⟨h1, e, h2⟩
      | @some fs tf hf =>
        have hat3 := AtToks.inv hats2
        obtain ⟨hq3, hrem3⟩ := hat3.punct
        rw [hq2] at hq3
        cases hq3
        rw [if_neg (by decide), wp_bind]
        refine setRes_wp (a := s.res ++ [0, 100]) (x := 102) (c := m) (by simp) (by simp) ?_
        rw [wp_bind, wp_incPos, wp_bind]
        refine wp_mono (parseAssignmentSet_complete fuel _ c%')' fs tf (td' ++ rest) (Or.inr rfl) hf (by simpa using hrem3)) ?_
        rintro crit s3 ⟨rfl, p3, rfl, hrem4⟩
        rw [if_neg (by simp)]
        refine wp_mono (parseDirectives_overflow fuel _ (n + 1) ds td' rest hds hn' hne hrem4) ?_
        rintro r s' ⟨h1, e, h2⟩
        exact ⟨h1, e, h2⟩

/-- A name of more than 254 characters. -/
theorem parseName_overflow {b cfg s} {n rest : Bytes} (hd : cfg.query.drop s.charNr = n ++ rest)
    (hn : ∃ c cs, n = c :: cs ∧ NameStart c ∧ ∀ x ∈ cs, NameChar x) (hl : 254 < n.length) :
    wp b parseAndWriteName cfg s (fun r s' => r.2 = true ∧ Failed s s') := by
  obtain ⟨c', cs', rfl, hc', hcs'⟩ := hn
  have hall' : ∀ x ∈ c' :: cs', isNameChar x = true := by
    intro x hx
    rcases List.mem_cons.mp hx with rfl | hx
    · exact isNameChar_of_start ((isNameStart_iff _).mpr hc')
    · exact (isNameChar_iff _).mpr (hcs' x hx)
  refine wp_mono parseAndWriteName_wp ?_
  rintro ⟨k, crit⟩ s' (⟨h1, rfl, c, hc, hns2⟩ | ⟨_, h2, _⟩ | ⟨c, cs, h1, h2, h3, h4⟩)
  · exfalso
    rw [get_of_drop (c := c') (t := cs' ++ rest) (by simpa using hd)] at hc
    injection hc with hc
    subst hc
    rw [(isNameStart_iff _).mpr hc'] at hns2
    cases hns2
  · exfalso
    rw [get_of_drop (c := c') (t := cs' ++ rest) (by simpa using hd)] at h2
    cases h2
  · rcases h4 with ⟨h4, h5, h6, rfl, c1, h7, h8⟩ | ⟨h4, h5, rfl⟩ | ⟨h4, h5, h6, rfl⟩
    · exfalso
      have hst2 : Stops (fun x => isNameChar x = true) (cfg.query.drop (s.charNr + (cs.length + 1))) := by
        intro c r h
        have := get_of_drop h
        rw [h7] at this
        injection this with this
        subst this
        simp [h8]
      have := run_le hall' hst2 (hd.symm.trans h3)
      simp at this hl
      omega
    · exact ⟨h4, _, rfl⟩
    · exact ⟨h4, _, rfl⟩

/-- The first field of an anonymous query fails: so does the parse. -/
theorem docLoop_firstField {cfg n fuel} {A : Nat → Prop} (s : PS) (he : s.charNr = 0) (hq : cfg.query[0]? = some c%'{')
    (hi : ∀ s : PS, s.charNr = 1 → wp True mightIgnore cfg s (fun r s' => ∃ c p, r = some c ∧ NameStart c ∧ s' = { s with charNr := p } ∧ A p))
    (hf : ∀ (f : Nat) (s : PS), A s.charNr → wp True (selLoop f) cfg s (fun r s' => r = true ∧ Failed s s')) :
    wp True (docLoop fuel n) cfg s (fun _ s' => ∃ e, s'.errs = s.errs ++ [e]) := by
  cases n with
  | zero => trivial
  | succ n =>
  unfold docLoop
  rw [wp_bind]
  have hnot : isIgnoredToken c%'{' cfg s = .ok false s := by
    unfold isIgnoredToken isLineTerminator isComment currentC
    simp [bind, he, hq, pure]
  have h0 : wp True mightIgnore cfg s (fun r s' => r = some c%'{' ∧ s' = s) := by
    unfold mightIgnore
    rw [wp_bind, wp_loopFuel]
    unfold mightIgnoreLoop
    rw [wp_bind, wp_getPos, wp_bind, wp_checkC, he, hq]
    dsimp only
    rw [wp_bind]
    unfold wp
    rw [hnot]
    dsimp only
    exact ⟨rfl, rfl⟩
  have h1 : wp True (parseOperatorOrFragment fuel) cfg s (fun r s' => r = true ∧ ∃ e, s'.errs = s.errs ++ [e]) := by
    unfold parseOperatorOrFragment
    rw [wp_bind]
    refine wp_mono h0 ?_
    rintro _ s1 ⟨rfl, h⟩
    rw [h]
    clear h s1
    dsimp only
    unfold instructionNewOperation opBody
    rw [wp_bind, wp_resLen, if_pos (by decide), wp_bind, wp_setTargetIfNone, wp_bind, wp_emit, wp_bind, wp_incPos, wp_bind]
    generalize hs0 : (if hasTarget cfg = true then s else { s with targetIdx := some s.res.length }) = s0
    have hc0 : s0.charNr = 0 := by rw [← hs0]; split <;> exact he
    have he0 : s0.errs = s.errs := by rw [← hs0]; split <;> rfl
    dsimp only
    have h2 : wp True (parseSelectionSet fuel) cfg { s0 with res := s0.res ++ [0, 111, c%'q', 102, 0], charNr := s0.charNr + 1 }
        (fun r s' => r = true ∧ ∃ e, s'.errs = s0.errs ++ [e]) := by
      cases fuel with
      | zero => unfold parseSelectionSet; trivial
      | succ fuel =>
        unfold parseSelectionSet
        rw [wp_bind]
        refine wp_mono (hi _ (by simp [hc0])) ?_
        rintro _ _ ⟨c, p, rfl, hc, rfl, hA⟩
        dsimp only
        rw [if_neg (by simp only [beq_iff_eq]; exact nameStart_ne hc (by unfold NameStart; decide))]
        refine wp_mono (hf fuel _ hA) ?_
        rintro r s' ⟨h, e, h'⟩
        exact ⟨h, e, h'⟩
    refine wp_mono h2 ?_
    rintro _ s' ⟨rfl, e, h'⟩
    rw [if_pos rfl, wp_pure]
    exact ⟨rfl, e, by rw [h', he0]⟩
  refine wp_mono h1 ?_
  rintro _ s' ⟨rfl, e, h'⟩
  rw [if_pos rfl, wp_pure]
  exact ⟨e, h'⟩

/-- The first field of `{ f @... }` with too many directives. -/
theorem selLoop_dirOverflow {cfg f dirs td t more} (hd : DirsT dirs td) (hl : 255 < dirs.length) :
    ∀ (fuel : Nat) (s : PS), AtTok cfg s.charNr (.name f) (td ++ t :: more) →
    wp True (selLoop fuel) cfg s (fun r s' => r = true ∧ Failed s s')
  | 0, _, _ => by unfold selLoop; exact wp_oof.mpr trivial
  | fuel + 1, s, hat => by
    unfold selLoop instructionNewField
    rw [wp_bind, wp_emit, wp_bind, wp_resLen, wp_bind, wp_resLen, wp_bind, wp_emit, wp_bind]
    dsimp only
    cases hd with
    | nil => simp at hl
    | @cons m a ta ds td' hm ha hds =>
    have hd : DirsT (⟨m, a⟩ :: ds) (.sigil c%'@' m :: (ta ++ td')) := DirsT.cons hm ha hds
    refine wp_mono (parseName_tok (n := f) (t := .sigil c%'@' m) (ts := ta ++ td' ++ t :: more) (by simpa using hat)) ?_
    rintro ⟨k, crit⟩ s' ⟨rfl, _, h0, hk, rfl, hrem2⟩
    simp only [Bool.false_eq_true, if_false] at h0 ⊢
    rw [wp_bind]
    refine setRes_wp (a := s.res ++ [0, c%'f', 0, 0, 0, 0, 0, 0, 0, 0, 0]) (x := 0) (c := f) (by simp) (by simp) ?_
    rw [h0, if_neg (by simp), wp_bind]
    refine wp_mono (mightIgnore_rem hrem2) ?_
    rintro _ _ ⟨c, p2, rfl, rfl, hf, hq2, hat2⟩
    cases hf
    dsimp only
    rw [wp_bind, wp_resLen, wp_bind, wp_emit, if_neg (by decide), wp_bind, wp_sliceRes]
    split
    · rw [wp_bind, wp_writeUint32]
      split
      · cases fuel with
        | zero => unfold fieldTail; exact wp_oof.mpr trivial
        | succ fuel =>
          unfold fieldTail
          rw [if_pos (by decide), wp_bind]
          refine wp_mono (parseDirectives_overflow fuel _ 0 _ _ (t :: more) hd (by simpa using hl) (by simp) (by simpa using hat2.rem)) ?_
          rintro ⟨n, crit⟩ s1 ⟨rfl, e, h⟩
          dsimp only
          rw [wp_bind, wp_setRes]
          split
          · rw [if_pos rfl, wp_pure]
            exact ⟨rfl, e, h⟩
          · trivial
      · trivial
    · trivial

theorem selLoop_nameOverflow {cfg n rest} (hn : ∃ c cs, n = c :: cs ∧ NameStart c ∧ ∀ x ∈ cs, NameChar x) (hl : 254 < n.length) :
    ∀ (fuel : Nat) (s : PS), cfg.query.drop s.charNr = n ++ rest →
    wp True (selLoop fuel) cfg s (fun r s' => r = true ∧ Failed s s')
  | 0, _, _ => by unfold selLoop; exact wp_oof.mpr trivial
  | fuel + 1, s, hat => by
    unfold selLoop instructionNewField
    rw [wp_bind, wp_emit, wp_bind, wp_resLen, wp_bind, wp_resLen, wp_bind, wp_emit, wp_bind]
    dsimp only
    refine wp_mono (parseName_overflow (n := n) (rest := rest) (by simpa using hat) hn hl) ?_
    rintro ⟨k, crit⟩ s' ⟨rfl, e, h⟩
    dsimp only
    rw [if_pos rfl, wp_pure]
    exact ⟨rfl, e, h⟩

theorem dirOverflow {query : Bytes} {target f dirs td t more} (hd : DirsT dirs td) (hl : 255 < dirs.length) (hf : IsName f)
    (ht : Good (t :: more)) (h : LexAt (.punct c%'{' :: .name f :: (td ++ t :: more)) query) (fuel n : Nat) :
    wp True (docLoop fuel n) ⟨query, target⟩ PS.init (fun _ s' => ∃ e, s'.errs = [e]) := by
  have hg : Good (.punct c%'{' :: .name f :: (td ++ t :: more)) :=
    good_cons.mpr ⟨goodPunct (by decide), good_cons.mpr ⟨hf, good_append.mpr ⟨DirsT.good hd, ht⟩⟩⟩
  have hat : AtTok ⟨query, target⟩ 0 (.punct c%'{') (.name f :: (td ++ t :: more)) := ⟨by simpa using h, hg⟩
  obtain ⟨hq, hrem⟩ := hat.punct
  refine wp_mono (docLoop_firstField (A := fun p => AtTok ⟨query, target⟩ p (.name f) (td ++ t :: more)) _ rfl hq ?_ ?_) ?_
  · intro s hs
    refine wp_mono (mightIgnore_rem (by rw [hs]; exact hrem)) ?_
    rintro _ _ ⟨c, p, rfl, rfl, hf, hq, hat⟩
    exact ⟨c, p, rfl, hf, rfl, hat⟩
  · exact selLoop_dirOverflow hd hl
  · rintro _ s' ⟨e, h⟩
    exact ⟨e, by simpa [PS.init] using h⟩

theorem nameOverflow {n rest : Bytes} {target} (hn : ∃ c cs, n = c :: cs ∧ NameStart c ∧ ∀ x ∈ cs, NameChar x)
    (hl : 254 < n.length) (fuel m : Nat) :
    wp True (docLoop fuel m) ⟨c%'{' :: (n ++ rest), target⟩ PS.init (fun _ s' => ∃ e, s'.errs = [e]) := by
  refine wp_mono (docLoop_firstField (A := fun p => p = 1) _ rfl (by simp) ?_ ?_) ?_
  · intro s hs
    obtain ⟨c, cs, rfl, hc, hcs⟩ := hn
    refine wp_mono (mightIgnore_exact (ign := []) (rest := c :: (cs ++ rest)) (by simp [hs]) .nil ?_) ?_
    · rintro c' r' h'
      injection h' with h' _
      rw [← h']; exact nameStart_tok hc
    · rintro _ _ ⟨rfl, p, rfl, hp⟩
      refine ⟨c, p, rfl, hc, rfl, ?_⟩
      have := congrArg List.length hp
      simp at this
      omega
  · intro f s hs
    exact selLoop_nameOverflow (rest := rest) hn hl f s (by simp [hs])
  · rintro _ s' ⟨e, h⟩
    exact ⟨e, by simpa [PS.init] using h⟩

end Parser
end Yarql
