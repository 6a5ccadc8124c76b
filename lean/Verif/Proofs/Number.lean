import Verif.Proofs.Ignore

/-! # Number literals: exact specification -/

namespace Yarql
namespace Parser
open Grammar Doc

theorem isIgnoredToken_yes {b cfg s c} (hq : cfg.query[s.charNr]? = some c) (hc : IgnStart c) :
    wp b (isIgnoredToken c) cfg s (fun r _ => r = true) := by
  have hlt := query_lt hq
  unfold isIgnoredToken isComment isLineTerminator
  wps
  rcases hc with (rfl | rfl | rfl | rfl | rfl) | rfl
  · simp
  · simp
  · simp [hq]
  · simp only [hq, show ((13 : UInt8) == 32 || (13 : UInt8) == 9) = false by decide, Bool.false_eq_true, if_false,
        show ((13 : UInt8) == 10) = false by decide, beq_self_eq_true, if_true]
    split <;> trivial
  · simp [hq]
  · simp only [hq, show ((35 : UInt8) == 32 || (35 : UInt8) == 9) = false by decide, Bool.false_eq_true, if_false,
        show ((35 : UInt8) == 10) = false by decide, show ((35 : UInt8) == 13) = false by decide, beq_self_eq_true, if_true]
    refine wp_mono (parseComment_wp _ _ (by omega) (by omega)) ?_
    intros; trivial

/-- From `n`, reading a number stopped at `p`, inside (or in front of) the ignored text that follows it. -/
def NumEnd (cfg : PCfg) (n p : Nat) : Prop :=
  n ≤ p ∧ p ≤ cfg.query.length ∧ ∀ ign rest, cfg.query.drop n = ign ++ rest → Ignored ign → TokStart rest →
    ∃ ign', cfg.query.drop p = ign' ++ rest ∧ Ignored ign'

/-- Characters that end a number. -/
def NumStop (c : Byte) : Prop := isPunctuator c = true ∨ IgnStart c ∨ c = c%','

theorem endOfNumber_wp {b cfg s c} (hq : cfg.query[s.charNr]? = some c) :
    wp b (endOfNumber c) cfg s (fun r s' =>
      (r = false ∧ s' = s ∧ ¬ NumStop c) ∨
      (r = true ∧ NumStop c ∧ ∃ p, s' = { s with charNr := p } ∧ NumEnd cfg s.charNr p)) := by
  have hlt := query_lt hq
  have hself : NumEnd cfg s.charNr s.charNr := ⟨Nat.le_refl _, by omega, fun ign rest h hi _ => ⟨ign, h, hi⟩⟩
  unfold endOfNumber
  wps
  split
  · rename_i hp
    exact Or.inr ⟨by trivial, Or.inl hp, s.charNr, rfl, hself⟩
  · rename_i hp
    by_cases hi : IgnStart c
    · have h1 := isIgnoredToken_yes (b := b) hq hi
      have h2 := isIgnoredToken_wp (b := b) (c := c) hlt
      have h3 : ∀ ign rest, cfg.query.drop s.charNr = ign ++ rest → Ignored ign → TokStart rest →
          wp b (isIgnoredToken c) cfg s (fun r s' => ∃ ign', cfg.query.drop s'.charNr = ign' ++ rest ∧ Ignored ign') := by
        intro ign rest hd hig hr
        cases ign with
        | nil =>
          have : rest = c :: cfg.query.drop (s.charNr + 1) := by
            simp only [List.nil_append] at hd
            rw [← hd]; exact drop_eq_cons hq
          exact absurd hi (hr c _ this)
        | cons d t =>
          have : d = c := by
            have := get_of_drop hd
            rw [hq] at this
            exact (Option.some.inj this).symm
          subst this
          refine wp_mono (isIgnoredToken_exact hd hig hr.not_lf) ?_
          rintro _ _ ⟨_, p, rfl, _, h, _⟩
          exact h
      have h4 : wp b (isIgnoredToken c) cfg s (fun r s' => (r = true ∧ ∃ p, s' = { s with charNr := p } ∧ s.charNr ≤ p ∧
          p ≤ cfg.query.length) ∧ ∀ ign rest, cfg.query.drop s.charNr = ign ++ rest → Ignored ign → TokStart rest →
          ∃ ign', cfg.query.drop s'.charNr = ign' ++ rest ∧ Ignored ign') := by
        unfold wp at *
        split
        · rename_i a s' hh
          simp only [hh] at h1 h2 h3
          exact ⟨⟨h1, h2⟩, h3⟩
        · rename_i hh; simp only [hh] at h1; exact h1
        · rename_i hh; simp only [hh] at h1; exact h1
      refine wp_mono h4 ?_
      rintro r s' ⟨⟨rfl, p, rfl, hp1, hp2⟩, h⟩
      simp only [if_true]
      exact Or.inr ⟨by trivial, Or.inr (Or.inl hi), p, rfl, hp1, hp2, h⟩
    · refine wp_mono (isIgnoredToken_no hq hi) ?_
      rintro _ _ ⟨rfl, rfl⟩
      simp only [Bool.false_eq_true, if_false]
      by_cases hc : c = c%','
      · subst hc
        exact Or.inr ⟨by simp, Or.inr (Or.inr rfl), _, rfl, hself⟩
      · refine Or.inl ⟨by simp [hc], by trivial, ?_⟩
        simp [NumStop, hp, hi, hc]

/-- The seven bytes a value instruction starts with, length still zero. -/
def hdr (k : Byte) : Bytes := [0, c%'v', k, 0, 0, 0, 0]

theorem patch_hdr (pre body : Bytes) (k : Byte) :
    patch (pre ++ (hdr k ++ body)) (pre.length + 7 - 4) (le32 (UInt32.ofNat ((pre ++ (hdr k ++ body)).length - (pre.length + 7)))) =
      pre ++ encHead k body := by
  have h := patch_append (pre ++ [0, c%'v', k]) [0, 0, 0, 0] body (len32 body.length) rfl
  have e1 : (pre ++ [0, c%'v', k]).length = pre.length + 7 - 4 := by simp
  have e2 : (pre ++ (hdr k ++ body)).length - (pre.length + 7) = body.length := by simp [hdr]; omega
  rw [e1] at h
  rw [e2]
  simpa [hdr, encHead, len32] using h

theorem closeLen_wp {b cfg s pre k body start} {Q : Unit → PS → Prop} (hres : s.res = pre ++ (hdr k ++ body))
    (hst : start = pre.length + 7) (hq : Q () { s with res := pre ++ encHead k body }) :
    wp b (closeLen start) cfg s Q := by
  subst hst
  unfold closeLen
  wps
  rw [if_pos (by rw [hres]; simp [hdr]; omega), hres, patch_hdr]
  exact hq

/-- Outcome of a digit loop that starts at position `n0`. -/
def RunPost (cfg : PCfg) (pre : Bytes) (k : Byte) (body : Bytes) (s : PS) (n0 : Nat) (stop : Byte → Prop) (close : Bool)
    (r : NumStep) (s' : PS) : Prop :=
  ∃ run, (∀ x ∈ run, isDigit x = true ∨ x = c%'_') ∧ cfg.query.drop n0 = run ++ cfg.query.drop (n0 + run.length) ∧
    ((cfg.query[n0 + run.length]? = none ∧ r = .ret true ∧
        s' = { s with res := pre ++ (hdr k ++ (body ++ run.filter isDigit)), charNr := n0 + run.length, errs := s.errs ++
          [mkErr cfg (n0 + run.length) b%"unexpected EOF"] }) ∨
     ∃ c, cfg.query[n0 + run.length]? = some c ∧ isDigit c = false ∧ c ≠ c%'_' ∧
      ((stop c ∧ r = .brk c ∧
          s' = { s with res := pre ++ (hdr k ++ (body ++ run.filter isDigit)), charNr := n0 + run.length }) ∨
       (¬ stop c ∧ NumStop c ∧ r = (if close then .ret false else .brk c) ∧ ∃ p, NumEnd cfg (n0 + run.length) p ∧
          s' = { s with res := pre ++ (if close then encHead k (body ++ run.filter isDigit) else
            (hdr k ++ (body ++ run.filter isDigit))), charNr := p }) ∨
       (¬ stop c ∧ (¬ NumStop c ∨ c = c%'.' ∨ c = c%'e' ∨ c = c%'E') ∧ r = .ret true ∧ ∃ m,
          s' = { s with res := pre ++ (hdr k ++ (body ++ run.filter isDigit)), charNr := n0 + run.length, errs := s.errs ++
            [mkErr cfg (n0 + run.length) m] })))

theorem RunPost.cons {cfg pre k body s s1 n0 stop close r s' c}
    (hc : cfg.query[n0]? = some c) (hcc : isDigit c = true ∨ c = c%'_')
    (hs1 : s1 = { s with res := pre ++ (hdr k ++ (body ++ [c].filter isDigit)), charNr := s1.charNr })
    (h : RunPost cfg pre k (body ++ [c].filter isDigit) s1 (n0 + 1) stop close r s') :
    RunPost cfg pre k body s n0 stop close r s' := by
  obtain ⟨run, h1, h2, h3⟩ := h
  have e : n0 + 1 + run.length = n0 + (c :: run).length := by simp; omega
  have e2 : body ++ [c].filter isDigit ++ run.filter isDigit = body ++ (c :: run).filter isDigit := by
    rw [List.append_assoc, ← List.filter_append]; rfl
  refine ⟨c :: run, ?_, ?_, ?_⟩
  · intro x hx
    rcases List.mem_cons.mp hx with rfl | hx
    · exact hcc
    · exact h1 x hx
  · rw [drop_eq_cons hc, h2, e]; rfl
  · rw [e, e2] at h3
    rw [hs1] at h3
    exact h3

theorem filter_single (c : Byte) (h : isDigit c = true) : [c].filter isDigit = [c] := by simp [h]
theorem filter_us : [c%'_'].filter isDigit = ([] : Bytes) := by decide

theorem intLoop_wp {b cfg pre k} : ∀ (fuel : Nat) (s : PS) (c : Byte) (body : Bytes),
    cfg.query.length - s.charNr < fuel → cfg.query[s.charNr]? = some c → s.res = pre ++ (hdr k ++ body) →
    wp b (intLoop (pre.length + 7) fuel c) cfg s
      (RunPost cfg pre k body s s.charNr (fun c => c = c%'.' ∨ c = c%'e' ∨ c = c%'E') true)
  | 0, s, c, body, hf, hc, hr => by omega
  | fuel + 1, s, c, body, hf, hc, hr => by
    unfold intLoop
    have hlt := query_lt hc
    have next : ∀ s1 : PS, s1 = { s with res := pre ++ (hdr k ++ (body ++ [c].filter isDigit)) } →
        (isDigit c = true ∨ c = c%'_') →
        wp b (do
          incPos
          match ← checkC (← getPos) with
          | none => return .ret (← unexpectedEOF)
          | some c => intLoop (pre.length + 7) fuel c) cfg s1
        (RunPost cfg pre k body s s.charNr (fun c => c = c%'.' ∨ c = c%'e' ∨ c = c%'E') true) := by
      rintro s1 rfl hcc
      wps
      cases hn : cfg.query[s.charNr + 1]? with
      | none =>
        simp only
        wps
        refine ⟨[c], by simpa using hcc, by simpa using drop_eq_cons hc, Or.inl ⟨by simpa using hn, by trivial, ?_⟩⟩
        simp
      | some d =>
        simp only
        refine wp_mono (intLoop_wp fuel _ d (body ++ [c].filter isDigit) (by simp; omega) (by simpa using hn) rfl) ?_
        intro r s' h
        exact RunPost.cons hc hcc rfl h
    simp only [wp_ite]
    split
    · rename_i hd
      rw [wp_bind, wp_emit]
      exact next { s with res := s.res ++ [c] } (by simp [hd, hr]) (Or.inl hd)
    · rename_i hd
      split
      · rename_i hstop
        refine ⟨[], by simp, by simp, Or.inr ⟨c, by simpa using hc, by simpa using hd, ?_, Or.inl ⟨?_, by simp, ?_⟩⟩⟩
        · rintro rfl; simp at hstop
        · simpa [or_assoc] using hstop
        · simp [← hr]
      · rename_i hstop
        have hst : ¬ (c = c%'.' ∨ c = c%'e' ∨ c = c%'E') := by simpa [or_assoc] using hstop
        split
        · rename_i hus
          have hus' : c = c%'_' := by simpa using hus
          refine next s ?_ (Or.inr hus')
          rw [hus', filter_us, List.append_nil, ← hr]
        · rename_i hus
          have hus' : c ≠ c%'_' := by simpa using hus
          wps
          refine wp_mono (endOfNumber_wp hc) ?_
          rintro r s' (⟨rfl, rfl, h⟩ | ⟨rfl, h, p, rfl, hp⟩)
          · simp only [Bool.false_eq_true, if_false]
            exact ⟨[], by simp, by simp, Or.inr ⟨c, by simpa using hc, by simpa using hd, hus', Or.inr (Or.inr ⟨hst, Or.inl h, rfl, _,
              by simp [← hr]; rfl⟩)⟩⟩
          · simp only [if_true]
            refine closeLen_wp (k := k) (body := body) hr rfl ?_
            refine ⟨[], by simp, by simp, Or.inr ⟨c, by simpa using hc, by simpa using hd, hus', Or.inr (Or.inl ⟨hst, h, rfl, p, ?_, ?_⟩)⟩⟩
            · simpa using hp
            · simp

theorem fracLoop_wp {b cfg pre k} : ∀ (fuel : Nat) (s : PS) (body : Bytes),
    cfg.query.length - s.charNr < fuel → s.charNr < cfg.query.length → s.res = pre ++ (hdr k ++ body) →
    wp b (fracLoop (pre.length + 7) fuel) cfg s
      (RunPost cfg pre k body s (s.charNr + 1) (fun c => c = c%'e' ∨ c = c%'E') true)
  | 0, s, body, hf, hl, hr => by omega
  | fuel + 1, s, body, hf, hl, hr => by
    unfold fracLoop
    wps
    cases hc : cfg.query[s.charNr + 1]? with
    | none =>
      simp only
      wps
      exact ⟨[], by simp, by simp, Or.inl ⟨by simpa using hc, by trivial, by simp [← hr]⟩⟩
    | some c =>
      have hlt := query_lt hc
      simp only
      wps
      split
      · rename_i hd
        refine wp_mono (fracLoop_wp fuel _ (body ++ [c].filter isDigit) (by simp; omega) (by simpa using hlt)
          (by simp [hd, hr]; rfl)) ?_
        intro r s' h
        exact RunPost.cons (s1 := { s with res := s.res ++ [c], charNr := s.charNr + 1 }) hc (Or.inl hd) (by simp [hd, hr]) h
      · rename_i hd
        split
        · rename_i hstop
          refine ⟨[], by simp, by simp, Or.inr ⟨c, by simpa using hc, by simpa using hd, ?_, Or.inl ⟨?_, by simp, ?_⟩⟩⟩
          · rintro rfl; simp at hstop
          · simpa [or_assoc] using hstop
          · simp [← hr]
        · rename_i hstop
          have hst : ¬ (c = c%'e' ∨ c = c%'E') := by simpa [or_assoc] using hstop
          split
          · rename_i hus
            have hus' : c = c%'_' := by simpa using hus
            subst hus'
            refine wp_mono (fracLoop_wp fuel _ (body ++ [c%'_'].filter isDigit) (by simp; omega) (by simpa using hlt)
              (by rw [filter_us, List.append_nil, ← hr])) ?_
            intro r s' h
            exact RunPost.cons (s1 := { s with charNr := s.charNr + 1 }) hc (Or.inr rfl)
              (by rw [filter_us, List.append_nil, ← hr]) h
          · rename_i hus
            have hus' : c ≠ c%'_' := by simpa using hus
            split
            · rename_i hdot
              have hdot' : c = c%'.' := by simpa using hdot
              exact ⟨[], by simp, by simp, Or.inr ⟨c, by simpa using hc, by simpa using hd, hus', Or.inr (Or.inr ⟨hst,
                Or.inr (Or.inl hdot'), rfl, _, by simp [← hr]; rfl⟩)⟩⟩
            · refine wp_mono (endOfNumber_wp (s := { s with charNr := s.charNr + 1 }) (by simpa using hc)) ?_
              rintro r s' (⟨rfl, rfl, h⟩ | ⟨rfl, h, p, rfl, hp⟩)
              · simp only [Bool.false_eq_true, if_false]
                exact ⟨[], by simp, by simp, Or.inr ⟨c, by simpa using hc, by simpa using hd, hus', Or.inr (Or.inr ⟨hst, Or.inl h, rfl, _,
                  by simp [← hr]; rfl⟩)⟩⟩
              · simp only [if_true]
                refine closeLen_wp (k := k) (body := body) hr rfl ?_
                refine ⟨[], by simp, by simp, Or.inr ⟨c, by simpa using hc, by simpa using hd, hus', Or.inr (Or.inl ⟨hst, h, rfl, p, ?_, ?_⟩)⟩⟩
                · simpa using hp
                · simp

theorem expLoop_wp {b cfg pre k} : ∀ (fuel : Nat) (s : PS) (c : Byte) (body : Bytes),
    cfg.query.length - s.charNr < fuel → cfg.query[s.charNr]? = some c → s.res = pre ++ (hdr k ++ body) →
    wp b (expLoop fuel c) cfg s (RunPost cfg pre k body s s.charNr (fun _ => False) false)
  | 0, s, c, body, hf, hc, hr => by omega
  | fuel + 1, s, c, body, hf, hc, hr => by
    unfold expLoop
    have hlt := query_lt hc
    have next : ∀ s1 : PS, s1 = { s with res := pre ++ (hdr k ++ (body ++ [c].filter isDigit)) } →
        (isDigit c = true ∨ c = c%'_') →
        wp b (do
          incPos
          match ← checkC (← getPos) with
          | none => return .ret (← unexpectedEOF)
          | some c => expLoop fuel c) cfg s1
        (RunPost cfg pre k body s s.charNr (fun _ => False) false) := by
      rintro s1 rfl hcc
      wps
      cases hn : cfg.query[s.charNr + 1]? with
      | none =>
        simp only
        wps
        refine ⟨[c], by simpa using hcc, by simpa using drop_eq_cons hc, Or.inl ⟨by simpa using hn, by trivial, ?_⟩⟩
        simp
      | some d =>
        simp only
        refine wp_mono (expLoop_wp fuel _ d (body ++ [c].filter isDigit) (by simp; omega) (by simpa using hn) rfl) ?_
        intro r s' h
        exact RunPost.cons hc hcc rfl h
    simp only [wp_ite]
    split
    · rename_i hd
      rw [wp_bind, wp_emit]
      exact next { s with res := s.res ++ [c] } (by simp [hd, hr]) (Or.inl hd)
    · rename_i hd
      split
      · rename_i hstop
        have hst : c = c%'e' ∨ c = c%'E' ∨ c = c%'.' := by simpa [or_assoc] using hstop
        wps
        refine ⟨[], by simp, by simp, Or.inr ⟨c, by simpa using hc, by simpa using hd, ?_, Or.inr (Or.inr ⟨id, ?_, by simp,
          b%"unexpected character in float value, char: \"" ++ strOfByte c ++ [c%'"'], ?_⟩)⟩⟩
        · rintro rfl; simp at hstop
        · rcases hst with h | h | h <;> simp [h]
        · simp [← hr]
      · rename_i hstop
        split
        · rename_i hus
          have hus' : c = c%'_' := by simpa using hus
          refine next s ?_ (Or.inr hus')
          rw [hus', filter_us, List.append_nil, ← hr]
        · rename_i hus
          have hus' : c ≠ c%'_' := by simpa using hus
          wps
          refine wp_mono (endOfNumber_wp hc) ?_
          rintro r s' (⟨rfl, rfl, h⟩ | ⟨rfl, h, p, rfl, hp⟩)
          · simp only [Bool.false_eq_true, if_false]
            exact ⟨[], by simp, by simp, Or.inr ⟨c, by simpa using hc, by simpa using hd, hus', Or.inr (Or.inr ⟨id, Or.inl h, rfl, _,
              by simp [← hr]; rfl⟩)⟩⟩
          · simp only [if_true]
            refine ⟨[], by simp, by simp, Or.inr ⟨c, by simpa using hc, by simpa using hd, hus', Or.inr (Or.inl ⟨id, h, rfl, p, ?_, ?_⟩)⟩⟩
            · simpa using hp
            · simp [← hr]

theorem set_kind (pre body : Bytes) (k x : Byte) : (pre ++ (hdr k ++ body)).set (pre.length + 2) x = pre ++ (hdr x ++ body) := by
  rw [List.set_append_right _ _ (by omega)]
  congr 1
  rw [show pre.length + 2 - pre.length = 2 by omega]
  rfl

/-- Failure of a number: an error at some position. -/
def NumFail (cfg : PCfg) (pre : Bytes) (s : PS) (crit : Bool) (s' : PS) : Prop :=
  crit = true ∧ ∃ out p m t, s.charNr ≤ p ∧ s' = { s with res := pre ++ out, charNr := p, errs := s.errs ++ [mkErr cfg t m] }

/-! ### Soundness -/

theorem digits_filter {run : Bytes} (_ : ∀ x ∈ run, isDigit x = true ∨ x = c%'_') : Digits (run.filter isDigit) := by
  intro d hd
  have := (List.mem_filter.mp hd).2
  simpa [isDigit] using this

theorem parseExponent_sound {b cfg pre k s c} {i f : Bytes} (hc : cfg.query[s.charNr]? = some c)
    (hr : s.res = pre ++ (hdr k ++ (i ++ f))) (hi : IsInt i)
    (hk : (f = [] ∧ (c = c%'e' ∨ c = c%'E')) ∨ (k = c%'f' ∧ ∃ ds, f = c%'.' :: ds ∧ Digits ds)) :
    wp b (parseExponent (pre.length + 7) (pre.length + 2) c) cfg s (fun crit s' =>
      NumFail cfg pre s crit s' ∨
      (crit = false ∧ ∃ v p, Value.WF v ∧ s.charNr ≤ p ∧ p ≤ cfg.query.length ∧
        s' = { s with res := pre ++ encValue v, charNr := p })) := by
  have hlt := query_lt hc
  unfold parseExponent
  wps
  split
  · rename_i he
    rw [if_pos (by rw [hr]; simp [hdr])]
    have hff : f = [] ∨ ∃ ds, f = c%'.' :: ds ∧ Digits ds := by
      rcases hk with ⟨h, _⟩ | ⟨_, h⟩
      · exact Or.inl h
      · exact Or.inr h
    have hres1 : ({ s with res := s.res.set (pre.length + 2) c%'f' } : PS).res ++ [c%'E'] =
        pre ++ (hdr c%'f' ++ (i ++ f ++ [c%'E'])) := by
      simp only [hr, set_kind]
      simp
    have go : ∀ (s1 : PS) (c1 : Byte) (sgn : Bytes), cfg.query[s1.charNr]? = some c1 → (sgn = [] ∨ sgn = [c%'-']) →
        s1 = { s with res := pre ++ (hdr c%'f' ++ ((i ++ f ++ [c%'E']) ++ sgn)), charNr := s1.charNr } →
        s.charNr ≤ s1.charNr →
        wp b (do
          match ← expLoop (← loopFuel) c1 with
          | .ret crit => return crit
          | .brk _ =>
            closeLen (pre.length + 7)
            return false) cfg s1 (fun crit s' => NumFail cfg pre s crit s' ∨
            (crit = false ∧ ∃ v p, Value.WF v ∧ s.charNr ≤ p ∧ p ≤ cfg.query.length ∧
              s' = { s with res := pre ++ encValue v, charNr := p })) := by
      intro s1 c1 sgn hc1 hsgn hs1 hle
      wps
      refine wp_mono (expLoop_wp (pre := pre) (k := c%'f') (cfg.query.length + 2) s1 c1 _ (by omega) hc1 (by rw [hs1])) ?_
      rintro r s' ⟨run, h1, h2, h3⟩
      rcases h3 with ⟨_, rfl, rfl⟩ | ⟨d, hd, _, _, ⟨h, _⟩ | ⟨_, _, rfl, p, hp, rfl⟩ | ⟨_, _, rfl, m, rfl⟩⟩
      · exact Or.inl ⟨rfl, _, s1.charNr + run.length, _, _, by omega, by rw [hs1]⟩
      · exact absurd h id
      · simp only [Bool.false_eq_true, if_false]
        wps
        refine closeLen_wp (pre := pre) (k := c%'f') rfl rfl ?_
        refine Or.inr ⟨by trivial, .float (i ++ f ++ [c%'E'] ++ sgn ++ run.filter isDigit), p, ?_, ?_, hp.2.1, ?_⟩
        · refine ⟨i, f, c%'E' :: (sgn ++ run.filter isDigit), by simp, hi, hff, Or.inr ⟨_, rfl, sgn, _, rfl, hsgn, digits_filter h1⟩,
            Or.inr (by simp)⟩
        · have := hp.1; omega
        · simp only [encValue]
          rw [hs1]
      · exact Or.inl ⟨rfl, _, s1.charNr + run.length, _, _, by omega, by rw [hs1]⟩
    cases hn : cfg.query[s.charNr + 1]? with
    | none =>
      simp only
      wps
      exact Or.inl ⟨rfl, hdr c%'f' ++ (i ++ f ++ [c%'E']), s.charNr + 1, _, _, by omega, by rw [hres1]⟩
    | some d =>
      simp only
      wps
      split
      · rename_i hsgn
        split
        · rename_i hm
          have hd : d = c%'-' := by simpa using hm
          subst hd
          cases hn2 : cfg.query[s.charNr + 1 + 1]? with
          | none =>
            simp only
            wps
            exact Or.inl ⟨rfl, hdr c%'f' ++ (i ++ f ++ [c%'E'] ++ [c%'-']), s.charNr + 1 + 1, _, _, by omega, by
              rw [hres1]; simp; rfl⟩
          | some e =>
            simp only
            exact go _ e [c%'-'] hn2 (Or.inr rfl) (by rw [hres1]; simp) (by simp; omega)
        · cases hn2 : cfg.query[s.charNr + 1 + 1]? with
          | none =>
            simp only
            wps
            exact Or.inl ⟨rfl, hdr c%'f' ++ (i ++ f ++ [c%'E']), s.charNr + 1 + 1, _, _, by omega, by
              rw [hres1]⟩
          | some e =>
            simp only
            exact go _ e [] hn2 (Or.inl rfl) (by rw [hres1]; simp) (by simp; omega)
      · have := go { s with res := s.res.set (pre.length + 2) c%'f' ++ [c%'E'], charNr := s.charNr + 1 } d [] hn (Or.inl rfl) (by rw [show s.res.set (pre.length + 2) c%'f' ++ [c%'E'] = _ from hres1]; simp) (by simp)
        simp only [wp_bind, wp_loopFuel] at this
        exact this
  · rename_i he
    have he' : ¬ (c = c%'e' ∨ c = c%'E') := by simpa using he
    rcases hk with ⟨_, h⟩ | ⟨rfl, ds, rfl, hds⟩
    · exact absurd h he'
    · refine closeLen_wp (pre := pre) (k := c%'f') hr rfl ?_
      refine Or.inr ⟨by trivial, .float (i ++ c%'.' :: ds), s.charNr, ?_, Nat.le_refl _, by omega, ?_⟩
      · exact ⟨i, c%'.' :: ds, [], by simp, hi, Or.inr ⟨ds, rfl, hds⟩, Or.inl rfl, Or.inl (by simp)⟩
      · simp only [encValue]

theorem parseNumberTail_sound {b cfg pre s c} {sgn : Bytes} (hc : cfg.query[s.charNr]? = some c)
    (hr : s.res = pre ++ (hdr c%'i' ++ sgn)) (hs : sgn = [] ∨ sgn = [c%'-']) :
    wp b (parseNumberTail (pre.length + 7) (pre.length + 2) c) cfg s (fun crit s' =>
      NumFail cfg pre s crit s' ∨
      (crit = false ∧ ∃ v p, Value.WF v ∧ s.charNr ≤ p ∧ p ≤ cfg.query.length ∧
        (isDigit c = true ∨ c = c%'.' → s.charNr < p) ∧
        s' = { s with res := pre ++ encValue v, charNr := p })) := by
  have hlt := query_lt hc
  unfold parseNumberTail
  wps
  refine wp_mono (intLoop_wp (cfg.query.length + 2) s c sgn (by omega) hc hr) ?_
  rintro r s' ⟨run, h1, h2, h3⟩
  have hrun : isDigit c = true → 0 < run.length := by
    intro hdc
    apply Classical.byContradiction
    intro h0
    have : run = [] := List.length_eq_zero_iff.mp (by omega)
    subst this
    simp only [List.length_nil, Nat.add_zero] at h3
    rcases h3 with ⟨h, _⟩ | ⟨d, hd, hnd, _⟩
    · rw [hc] at h; cases h
    · rw [hc] at hd
      injection hd with hd
      rw [hd] at hdc
      rw [hdc] at hnd
      cases hnd
  have hint : IsInt (sgn ++ run.filter isDigit) := ⟨sgn, _, rfl, hs, digits_filter h1⟩
  rcases h3 with ⟨_, rfl, rfl⟩ | ⟨d, hd, hnd, hnu, ⟨hst, rfl, rfl⟩ | ⟨hst, _, rfl, p, hp, rfl⟩ | ⟨_, _, rfl, m, rfl⟩⟩
  · exact Or.inl ⟨rfl, _, s.charNr + run.length, _, _, by omega, rfl⟩
  · simp only
    wps
    have hdl := query_lt hd
    split
    · rename_i hdot
      have hdot' : d = c%'.' := by simpa using hdot
      subst hdot'
      rw [if_pos (by simp [hdr])]
      simp only [set_kind]
      refine wp_mono (fracLoop_wp (pre := pre) (k := c%'f') (body := sgn ++ run.filter isDigit ++ [c%'.']) (cfg.query.length + 2) _
        (by simp; omega) (by simpa using hdl) (by simp)) ?_
      rintro r s' ⟨run2, h1', h2', h3'⟩
      simp only at h2' h3'
      rcases h3' with ⟨_, rfl, rfl⟩ | ⟨e, he, hne, hnue, ⟨hst', rfl, rfl⟩ | ⟨hst', _, rfl, p, hp, rfl⟩ | ⟨_, _, rfl, m, rfl⟩⟩
      · exact Or.inl ⟨rfl, _, s.charNr + run.length + 1 + run2.length, _, _, by omega, rfl⟩
      · simp only
        refine wp_mono (parseExponent_sound (pre := pre) (k := c%'f') (i := sgn ++ run.filter isDigit)
          (f := c%'.' :: run2.filter isDigit) he (by simp) hint (Or.inr ⟨rfl, _, rfl, digits_filter h1'⟩)) ?_
        rintro crit s' (⟨hcr, out, p, m, t, hp, rfl⟩ | ⟨hcr, v, p, hv, hp, hpl, rfl⟩)
        · exact Or.inl ⟨hcr, out, p, m, t, by simp at hp; omega, rfl⟩
        · exact Or.inr ⟨hcr, v, p, hv, by simp at hp; omega, hpl, by simp at hp; intro; omega, rfl⟩
      · simp only [if_true]
        refine Or.inr ⟨by trivial, .float (sgn ++ run.filter isDigit ++ c%'.' :: run2.filter isDigit), p, ?_, ?_, hp.2.1, ?_, ?_⟩
        · exact ⟨sgn ++ run.filter isDigit, c%'.' :: run2.filter isDigit, [], by simp, hint, Or.inr ⟨_, rfl, digits_filter h1'⟩,
            Or.inl rfl, Or.inl (by simp)⟩
        · have := hp.1; omega
        · have := hp.1; intro; omega
        · simp [encValue]
      · exact Or.inl ⟨rfl, _, s.charNr + run.length + 1 + run2.length, _, _, by omega, rfl⟩
    · rename_i hdot
      have hdot' : d ≠ c%'.' := by simpa using hdot
      have hde : d = c%'e' ∨ d = c%'E' := hst.resolve_left hdot'
      refine wp_mono (parseExponent_sound (pre := pre) (k := c%'i') (i := sgn ++ run.filter isDigit)
          (f := []) hd (by simp) hint (Or.inl ⟨rfl, hde⟩)) ?_
      rintro crit s' (⟨hcr, out, p, m, t, hp, rfl⟩ | ⟨hcr, v, p, hv, hp, hpl, rfl⟩)
      · exact Or.inl ⟨hcr, out, p, m, t, by simp at hp; omega, rfl⟩
      · refine Or.inr ⟨hcr, v, p, hv, by simp at hp; omega, hpl, ?_, rfl⟩
        simp at hp
        rintro (h | h)
        · have := hrun h; omega
        · apply Classical.byContradiction
          intro hnlt
          have h0 : run.length = 0 := by omega
          rw [h0, Nat.add_zero, hc] at hd
          injection hd with hd
          exact hdot' (hd ▸ h)
  · simp only [if_true]
    refine Or.inr ⟨by trivial, .int (sgn ++ run.filter isDigit), p, hint, ?_, hp.2.1, ?_, ?_⟩
    · have := hp.1; omega
    · have := hp.1
      rintro (h | h)
      · have := hrun h; omega
      · apply Classical.byContradiction
        intro hnlt
        have h0 : run.length = 0 := by omega
        rw [h0, Nat.add_zero, hc] at hd
        injection hd with hd
        exact hst (Or.inl (hd ▸ h))
    · simp [encValue]
  · exact Or.inl ⟨rfl, _, s.charNr + run.length, _, _, by omega, rfl⟩

theorem parseNumberInputValue_sound {b cfg s c} (hc : cfg.query[s.charNr]? = some c)
    (hcc : c = c%'-' ∨ c = c%'+' ∨ c = c%'.' ∨ isDigit c = true) :
    wp b parseNumberInputValue cfg s (fun crit s' =>
      NumFail cfg s.res s crit s' ∨
      (crit = false ∧ ∃ v p, Value.WF v ∧ s.charNr < p ∧ p ≤ cfg.query.length ∧
        s' = { s with res := s.res ++ encValue v, charNr := p })) := by
  unfold parseNumberInputValue instructionNewValueInt
  wps
  simp only [hc]
  have hlen : (s.res ++ [0, 118, 105, 0, 0, 0, 0] : Bytes).length = s.res.length + 7 := by simp
  have hlen2 : s.res.length + 7 - 5 = s.res.length + 2 := by omega
  rw [hlen, hlen2]
  have after : ∀ (sgn : Bytes), (sgn = [] ∨ sgn = [c%'-']) →
      wp b (do match ← checkC (← getPos) with
        | none => unexpectedEOF
        | some c => parseNumberTail (s.res.length + 7) (s.res.length + 2) c) cfg
        { s with res := s.res ++ (hdr c%'i' ++ sgn), charNr := s.charNr + 1 } (fun crit s' =>
      NumFail cfg s.res s crit s' ∨
      (crit = false ∧ ∃ v p, Value.WF v ∧ s.charNr < p ∧ p ≤ cfg.query.length ∧
        s' = { s with res := s.res ++ encValue v, charNr := p })) := by
    intro sgn hs
    wps
    cases hn : cfg.query[s.charNr + 1]? with
    | none =>
      simp only
      wps
      exact Or.inl ⟨rfl, _, s.charNr + 1, _, _, by omega, rfl⟩
    | some d =>
      simp only
      refine wp_mono (parseNumberTail_sound (pre := s.res) (sgn := sgn) hn rfl hs) ?_
      rintro crit s' (⟨hcr, out, p, m, t, hp, rfl⟩ | ⟨hcr, v, p, hv, hp, hpl, _, rfl⟩)
      · exact Or.inl ⟨hcr, out, p, m, t, by simp at hp; omega, rfl⟩
      · exact Or.inr ⟨hcr, v, p, hv, by simp at hp; omega, hpl, rfl⟩
  split
  · have := after [c%'-'] (Or.inr rfl)
    simp only [wp_bind, wp_getPos, wp_checkC] at this
    rw [List.append_assoc]
    exact this
  · split
    · have := after [] (Or.inl rfl)
      simp only [wp_bind, wp_getPos, wp_checkC] at this
      exact this
    · rename_i h1 h2
      refine wp_mono (parseNumberTail_sound (pre := s.res) (sgn := []) hc rfl (Or.inl rfl)) ?_
      rintro crit s' (⟨hcr, out, p, m, t, hp, rfl⟩ | ⟨hcr, v, p, hv, hp, hpl, hlt, rfl⟩)
      · exact Or.inl ⟨hcr, out, p, m, t, by simpa using hp, rfl⟩
      · refine Or.inr ⟨hcr, v, p, hv, ?_, hpl, rfl⟩
        simp at h1 h2
        have : isDigit c = true ∨ c = c%'.' := by
          rcases hcc with h | h | h | h
          · exact absurd h h1
          · exact absurd h h2
          · exact Or.inr h
          · exact Or.inl h
        exact hlt this

end Parser
end Yarql
