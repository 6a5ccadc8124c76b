import Verif.Proofs.Number

/-! # String literals: safety and soundness -/

namespace Yarql
namespace Parser
open Grammar Doc

/-- A failing return of a sub-step of a value with header kind `k`. -/
def StepFail (cfg : PCfg) (s : PS) (s' : PS) : Prop :=
  ∃ out p m t, s.charNr ≤ p ∧ s' = { s with res := s.res ++ out, charNr := p, errs := s.errs ++ [mkErr cfg t m] }

theorem blockTrimStart_sound {b cfg} : ∀ (fuel : Nat) (s : PS), cfg.query.length - s.charNr < fuel → 0 < s.charNr →
    wp b (blockTrimStart fuel) cfg s (fun r s' =>
      (r = some true ∧ StepFail cfg s s') ∨
      (r = none ∧ ∃ p, s' = { s with charNr := p } ∧ s.charNr ≤ p + 1 ∧ p + 1 < cfg.query.length))
  | 0, s, hf, h0 => by omega
  | fuel + 1, s, hf, h0 => by
    unfold blockTrimStart
    wps
    cases hc : cfg.query[s.charNr]? with
    | none =>
      simp only
      wps
      exact Or.inl ⟨by trivial, [], s.charNr, _, _, Nat.le_refl _, by simp; rfl⟩
    | some c =>
      have hlt := query_lt hc
      simp only
      wps
      split
      · refine wp_mono (blockTrimStart_sound fuel _ (by simp; omega) (by simp)) ?_
        rintro r s' (⟨rfl, out, p, m, t, hp, rfl⟩ | ⟨rfl, p, rfl, hp, hp'⟩)
        · exact Or.inl ⟨rfl, out, p, m, t, by simp at hp; omega, rfl⟩
        · exact Or.inr ⟨rfl, p, rfl, by simp at hp; omega, hp'⟩
      · rw [if_neg (by omega)]
        exact Or.inr ⟨by trivial, s.charNr - 1, rfl, by omega, by omega⟩

theorem blockIndent_sound {b cfg} : ∀ (fuel : Nat) (s : PS), cfg.query.length - s.charNr < fuel →
    wp b (blockIndent fuel) cfg s (fun r s' =>
      (r = some true ∧ StepFail cfg s s') ∨
      (r = none ∧ ∃ p, s' = { s with charNr := p } ∧ s.charNr ≤ p ∧ p + 1 < cfg.query.length))
  | 0, s, hf => by omega
  | fuel + 1, s, hf => by
    unfold blockIndent
    wps
    cases hc : cfg.query[s.charNr + 1]? with
    | none =>
      simp only
      wps
      exact Or.inl ⟨by trivial, [], s.charNr + 1, _, _, by omega, by simp; rfl⟩
    | some c =>
      have hlt := query_lt hc
      simp only
      wps
      split
      · refine wp_mono (blockIndent_sound fuel _ (by simp; omega)) ?_
        rintro r s' (⟨rfl, out, p, m, t, hp, rfl⟩ | ⟨rfl, p, rfl, hp, hp'⟩)
        · exact Or.inl ⟨rfl, out, p, m, t, by simp at hp; omega, rfl⟩
        · exact Or.inr ⟨rfl, p, rfl, by simp at hp; omega, hp'⟩
      · rw [if_neg (by omega)]
        exact Or.inr ⟨by trivial, s.charNr, by simp, by omega, by omega⟩

theorem blockTrimEnd_exact {b cfg pre k} : ∀ (fuel : Nat) (s : PS) (body : Bytes), s.res = pre ++ (hdr k ++ body) →
    body.length < fuel →
    wp b (blockTrimEnd fuel) cfg s (fun _ s' => s' = { s with res := pre ++ (hdr k ++ trimEnd body) })
  | 0, s, body, hr, hf => by omega
  | fuel + 1, s, body, hr, hf => by
    unfold blockTrimEnd
    wps
    rw [if_neg (by rw [hr]; simp [hdr])]
    rcases List.eq_nil_or_concat body with rfl | ⟨init, last, rfl⟩
    · have hl : s.res[s.res.length - 1]? = some 0 := by
        rw [hr]
        simp [hdr]
      rw [hl]
      simp
      rw [show trimEnd [] = [] from rfl, ← hr]
    · have hl : s.res[s.res.length - 1]? = some last := by
        rw [hr]
        simp only [List.concat_eq_append, ← List.append_assoc]
        rw [show (pre ++ hdr k ++ init ++ [last]).length - 1 = (pre ++ hdr k ++ init).length by simp; omega]
        simp
      rw [hl]
      simp only
      split
      · rename_i hws
        rw [if_pos (by omega)]
        have hres : s.res.take (s.res.length - 1) = pre ++ (hdr k ++ init) := by
          rw [hr]
          simp only [List.concat_eq_append, ← List.append_assoc]
          rw [show (pre ++ hdr k ++ init ++ [last]).length - 1 = (pre ++ hdr k ++ init).length by simp; omega]
          rw [List.take_left]
        refine wp_mono (blockTrimEnd_exact fuel _ init hres (by simp at hf; omega)) ?_
        rintro _ _ rfl
        have : trimEnd (init.concat last) = trimEnd init := by
          have h2 : (last == 32 || last == 10 || last == 13) = true := by
            simp at hws ⊢
            rcases hws with (h | h) | h <;> simp [h]
          simp [trimEnd, h2]
        rw [this]
      · rename_i hws
        have : trimEnd (init.concat last) = init.concat last := by
          have h2 : (last == 32 || last == 10 || last == 13) = false := by
            simp at hws ⊢
            simp [hws]
          simp [trimEnd, h2]
        rw [this, ← hr]

theorem parseEscape_sound {b cfg s} :
    wp b parseEscape cfg s (fun r s' =>
      (r = some true ∧ StepFail cfg s s') ∨
      (r = none ∧ ∃ out p, s' = { s with res := s.res ++ out, charNr := p } ∧ s.charNr < p)) := by
  unfold parseEscape
  wps
  cases hc : cfg.query[s.charNr + 1]? with
  | none =>
    simp only
    wps
    exact Or.inl ⟨by trivial, [], s.charNr + 1, _, _, by omega, by simp; rfl⟩
  | some c =>
    simp only
    wps
    split
    · exact Or.inr ⟨by trivial, [], s.charNr + 1, by simp, by omega⟩
    split
    · exact Or.inl ⟨by trivial, [], s.charNr + 1, _, _, by omega, by simp; rfl⟩
    split
    · exact Or.inr ⟨by trivial, _, s.charNr + 1, rfl, by omega⟩
    split
    · exact Or.inr ⟨by trivial, _, s.charNr + 1, rfl, by omega⟩
    split
    · exact Or.inr ⟨by trivial, _, s.charNr + 1, rfl, by omega⟩
    split
    · exact Or.inr ⟨by trivial, _, s.charNr + 1, rfl, by omega⟩
    split
    · exact Or.inr ⟨by trivial, _, s.charNr + 1, rfl, by omega⟩
    split
    · cases hc4 : cfg.query[s.charNr + 1 + 1 + 1 + 1 + 1]? with
      | none =>
        simp only
        wps
        exact Or.inl ⟨by trivial, [], s.charNr + 1 + 1 + 1 + 1 + 1, _, _, by omega, by simp; rfl⟩
      | some c4 =>
        simp only
        split
        · wps
          exact Or.inl ⟨by trivial, [], s.charNr + 1 + 1 + 1 + 1 + 1, _, _, by omega, by simp; rfl⟩
        · wps
          exact Or.inr ⟨by trivial, _, s.charNr + 1 + 1 + 1 + 1 + 1, rfl, by omega⟩
    · exact Or.inr ⟨by trivial, _, s.charNr + 1, rfl, by omega⟩

/-- post-condition of the string loop -/
def StrPost (cfg : PCfg) (pre : Bytes) (s : PS) (crit : Bool) (s' : PS) : Prop :=
  NumFail cfg pre s crit s' ∨
  (crit = false ∧ ∃ v p, s.charNr < p ∧ s' = { s with res := pre ++ encHead c%'s' v, charNr := p })

theorem StrPost.weaken {cfg pre s s1 crit s'} (h : StrPost cfg pre s1 crit s') (hp : s.charNr ≤ s1.charNr)
    (hs : s1 = { s with res := s1.res, charNr := s1.charNr }) : StrPost cfg pre s crit s' := by
  rcases h with ⟨hc, out, p, m, t, hp', rfl⟩ | ⟨hc, v, p, hp', rfl⟩
  · exact Or.inl ⟨hc, out, p, m, t, by omega, by rw [hs]⟩
  · exact Or.inr ⟨hc, v, p, by omega, by rw [hs]⟩

theorem stringLoop_sound {b cfg pre isBlock} : ∀ (fuel : Nat) (s : PS) (body : Bytes),
    cfg.query.length - s.charNr < fuel → s.res = pre ++ (hdr c%'s' ++ body) →
    wp b (stringLoop isBlock (pre.length + 7) fuel) cfg s (StrPost cfg pre s)
  | 0, s, body, hf, hr => by omega
  | fuel + 1, s, body, hf, hr => by
    unfold stringLoop
    wps
    cases hc : cfg.query[s.charNr + 1]? with
    | none =>
      simp only
      wps
      exact Or.inl ⟨rfl, _, s.charNr + 1, _, _, by omega, by rw [hr]⟩
    | some c =>
      have hlt := query_lt hc
      have rec_ : ∀ (s1 : PS) (body1 : Bytes), s.charNr + 1 ≤ s1.charNr →
          s1 = { s with res := pre ++ (hdr c%'s' ++ body1), charNr := s1.charNr } →
          wp b (stringLoop isBlock (pre.length + 7) fuel) cfg s1 (StrPost cfg pre s) := by
        intro s1 body1 h1 h2
        refine wp_mono (stringLoop_sound fuel s1 body1 (by omega) (by rw [h2])) ?_
        intro crit s' h
        exact h.weaken (by omega) (by rw [h2])
      have rest : wp b (do
          if c == c%'\\' then
            match ← parseEscape with
            | some crit => return crit
            | none => stringLoop isBlock (pre.length + 7) fuel
          else
            emit [c]
            stringLoop isBlock (pre.length + 7) fuel) cfg { s with charNr := s.charNr + 1 } (StrPost cfg pre s) := by
        wps
        split
        · refine wp_mono parseEscape_sound ?_
          rintro r s' (⟨rfl, out, p, m, t, hp, rfl⟩ | ⟨rfl, out, p, rfl, hp⟩)
          · simp only at hp
            exact Or.inl ⟨rfl, hdr c%'s' ++ (body ++ out), p, m, t, by omega, by simp [hr]⟩
          · simp only at hp
            exact rec_ _ (body ++ out) (by simp; omega) (by simp [hr])
        · exact rec_ _ (body ++ [c]) (by simp) (by simp [hr])
      simp only
      wps
      split
      · exact rec_ _ body (by simp) (by simp [hr])
      · split
        · split
          · exact Or.inl ⟨rfl, _, s.charNr + 1, _, _, by omega, by rw [hr]⟩
          · have indent : ∀ (s1 : PS) (body1 : Bytes), s.charNr + 1 ≤ s1.charNr →
                s1 = { s with res := pre ++ (hdr c%'s' ++ body1), charNr := s1.charNr } →
                wp b (blockIndent (cfg.query.length + 2)) cfg s1 (fun a s' => wp b (match a with
                  | some crit => return crit
                  | none => stringLoop isBlock (pre.length + 7) fuel) cfg s' (StrPost cfg pre s)) := by
              intro s1 body1 h1 h2
              refine wp_mono (blockIndent_sound _ _ (by omega)) ?_
              rintro r s' (⟨rfl, out, p, m, t, hp, rfl⟩ | ⟨rfl, p, rfl, hp, hp'⟩)
              · exact Or.inl ⟨rfl, hdr c%'s' ++ (body1 ++ out), p, m, t, by omega, by rw [h2]; simp⟩
              · exact rec_ _ body1 (by simp; omega) (by rw [h2])
            split
            · split
              · exact indent _ (body ++ [c] ++ [c%'\n']) (by simp) (by simp [hr])
              · exact indent _ (body ++ [c]) (by simp) (by simp [hr])
            · exact indent _ (body ++ [c]) (by simp) (by simp [hr])
        · split
          · split
            · refine closeLen_wp (pre := pre) (k := c%'s') (body := body) hr rfl ?_
              exact Or.inr ⟨by trivial, body, s.charNr + 1 + 1, by omega, rfl⟩
            · refine wp_mono (matchesKw_wp [b%"\"\"\""] (by simp)) ?_
              rintro r s' (⟨rfl, rfl, _⟩ | ⟨m, key, rfl, hg, _, rfl⟩)
              · simp only [show ((none : Option Nat) == some 0) = false by decide, Bool.false_eq_true, if_false]
                have := rest
                simp only [wp_bind, wp_ite, wp_emit] at this
                exact this
              · have hm : m = 0 ∧ key = b%"\"\"\"" := by
                  cases m with
                  | zero => simpa [eq_comm] using hg
                  | succ m => simp at hg
                obtain ⟨rfl, rfl⟩ := hm
                simp only [beq_self_eq_true, if_true]
                refine wp_mono (blockTrimEnd_exact (pre := pre) (k := c%'s') _ _ body hr (by simp [hr]; omega)) ?_
                rintro _ _ rfl
                refine closeLen_wp (pre := pre) (k := c%'s') rfl rfl ?_
                exact Or.inr ⟨by trivial, _, _, by simp; omega, rfl⟩
          · have := rest
            simp only [wp_bind, wp_ite, wp_emit] at this
            exact this

theorem parseStringInputValue_sound {b cfg s} :
    wp b parseStringInputValue cfg s (StrPost cfg s.res s) := by
  unfold parseStringInputValue instructionNewValueString
  wps
  have hlen : (s.res ++ [0, 118, 115, 0, 0, 0, 0] : Bytes).length = s.res.length + 7 := by simp
  rw [hlen]
  refine wp_mono (matchesKw_wp [b%"\"\"\""] (by simp)) ?_
  rintro r s' (⟨rfl, rfl, _⟩ | ⟨m, key, rfl, hg, _, rfl⟩)
  · simp only [show ((none : Option Nat) == some 0) = false by decide, Bool.false_eq_true, if_false]
    refine wp_mono (stringLoop_sound (pre := s.res) _ _ [] (by simp; omega) (by simp [hdr])) ?_
    intro crit s' h
    exact h.weaken (Nat.le_refl _) rfl
  · have hm : m = 0 ∧ key = b%"\"\"\"" := by
      cases m with
      | zero => simpa [eq_comm] using hg
      | succ m => simp at hg
    obtain ⟨rfl, rfl⟩ := hm
    simp only [beq_self_eq_true, if_true]
    refine wp_mono (blockTrimStart_sound _ _ (by simp; omega) (by simp)) ?_
    rintro r s' (⟨rfl, out, p, m, t, hp, rfl⟩ | ⟨rfl, p, rfl, hp, hp'⟩)
    · simp only
      wps
      exact Or.inl ⟨by trivial, _, p, m, t, by simp at hp; omega, by simp; rfl⟩
    · simp only
      simp only [List.length_cons, List.length_nil] at hp
      refine wp_mono (stringLoop_sound (pre := s.res) _ _ [] (by simp; omega) (by simp [hdr])) ?_
      intro crit s' h
      exact h.weaken (by simp; omega) rfl

end Parser
end Yarql
