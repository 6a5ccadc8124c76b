import Verif.Proofs.ParserBase

/-! # Names and keywords: exact specifications -/

namespace Yarql
namespace Parser
open Doc

theorem isNameStart_iff (c : Byte) : isNameStart c = true ↔ NameStart c := by
  simp [isNameStart, NameStart, or_assoc]

theorem isNameChar_iff (c : Byte) : isNameChar c = true ↔ NameChar c := by
  simp [isNameChar, NameChar, NameStart, or_assoc]

theorem isNameChar_of_start {c : Byte} (h : isNameStart c = true) : isNameChar c = true := by
  rw [isNameChar_iff]; exact Or.inl ((isNameStart_iff c).mp h)

theorem drop_eq_cons {q : Bytes} {i : Nat} {c : Byte} (h : q[i]? = some c) : q.drop i = c :: q.drop (i + 1) := by
  rw [List.getElem?_eq_some_iff] at h
  obtain ⟨hl, rfl⟩ := h
  exact List.drop_eq_getElem_cons hl

/-- Result of reading the rest of a name after `n` characters. -/
def NameLoopPost (cfg : PCfg) (s : PS) (n : Nat) (r : UInt8 × Bool) (s' : PS) : Prop :=
  ∃ cs, (∀ x ∈ cs, isNameChar x = true) ∧ cfg.query.drop s.charNr = cs ++ cfg.query.drop (s.charNr + cs.length) ∧
    ((r.2 = false ∧ n + cs.length ≤ 254 ∧ r.1.toNat = n + cs.length ∧
        s' = { s with res := s.res ++ cs, charNr := s.charNr + cs.length } ∧
        ∃ c, cfg.query[s.charNr + cs.length]? = some c ∧ isNameChar c = false) ∨
     (r.2 = true ∧ n + cs.length = 255 ∧ s' = { s with res := s.res ++ cs, charNr := s.charNr + cs.length, errs := s.errs ++
        [mkErr cfg (s.charNr + cs.length) b%"names cannot be longer than 254 chars"] }) ∨
     (r.2 = true ∧ n + cs.length ≤ 254 ∧ cfg.query[s.charNr + cs.length]? = none ∧
        s' = { s with res := s.res ++ cs, charNr := s.charNr + cs.length, errs := s.errs ++
        [mkErr cfg (s.charNr + cs.length) b%"unexpected EOF"] }))

theorem nameLoop_wp {b cfg} : ∀ (fuel : Nat) (s : PS) (n : UInt8), n.toNat ≤ 254 → cfg.query.length - s.charNr < fuel →
    wp b (nameLoop fuel n) cfg s (NameLoopPost cfg s n.toNat)
  | 0, s, n, hn, hf => by omega
  | fuel + 1, s, n, hn, hf => by
    unfold nameLoop
    wps
    cases hc : cfg.query[s.charNr]? with
    | none =>
      simp only
      wps
      refine ⟨[], by simp, by simp, Or.inr (Or.inr ⟨rfl, by simpa using hn, by simpa using hc, by simp⟩)⟩
    | some c =>
      simp only
      wps
      split
      · rename_i hcc
        have hn1 : (n + 1).toNat = n.toNat + 1 := by
          rw [UInt8.toNat_add]
          simp
          omega
        have hdrop := drop_eq_cons hc
        split
        · rename_i h255
          have h255' : (n + 1) = 255 := by simpa using h255
          refine ⟨[c], by simpa using hcc, by simpa using hdrop, Or.inr (Or.inl ⟨rfl, ?_, rfl⟩)⟩
          have : (n + 1).toNat = 255 := by rw [h255']; rfl
          simp; omega
        · rename_i h255
          have hne : (n + 1).toNat ≠ 255 := by
            intro h
            apply h255
            have : (n + 1) = 255 := by
              apply UInt8.toNat_inj.mp
              rw [h]; rfl
            simpa using this
          refine wp_mono (nameLoop_wp fuel { s with res := s.res ++ [c], charNr := s.charNr + 1 } (n + 1) (by omega)
            (by have := query_lt hc; simp; omega)) ?_
          rintro r s' ⟨cs, h1, h2, h3⟩
          simp only at h2 h3
          have e : s.charNr + 1 + cs.length = s.charNr + (cs.length + 1) := by omega
          have e2 : n.toNat + 1 + cs.length = n.toNat + (cs.length + 1) := by omega
          refine ⟨c :: cs, ?_, ?_, ?_⟩
          · intro x hx
            rcases List.mem_cons.mp hx with rfl | hx
            · exact hcc
            · exact h1 x hx
          · rw [hdrop, h2, List.length_cons, e]; simp
          · rw [hn1, e, e2] at h3
            simpa [List.length_cons, List.append_assoc] using h3
      · rename_i hcc
        refine ⟨[], by simp, by simp, Or.inl ⟨rfl, by simpa using hn, by simp, by simp, c, by simpa using hc, ?_⟩⟩
        simpa using hcc

/-- Result of `parseAndWriteName`. -/
def NamePost (cfg : PCfg) (s : PS) (r : UInt8 × Bool) (s' : PS) : Prop :=
  -- no name here
  (r = (0, false) ∧ s' = s ∧ ∃ c, cfg.query[s.charNr]? = some c ∧ isNameStart c = false) ∨
  -- end of input
  (r.2 = true ∧ cfg.query[s.charNr]? = none ∧ s' = { s with errs := s.errs ++ [mkErr cfg s.charNr b%"unexpected EOF"] }) ∨
  ∃ c cs, isNameStart c = true ∧ (∀ x ∈ cs, isNameChar x = true) ∧
    cfg.query.drop s.charNr = (c :: cs) ++ cfg.query.drop (s.charNr + (cs.length + 1)) ∧
    ((r.2 = false ∧ cs.length + 1 ≤ 254 ∧ r.1.toNat = cs.length + 1 ∧
        s' = { s with res := s.res ++ c :: cs, charNr := s.charNr + (cs.length + 1) } ∧
        ∃ c, cfg.query[s.charNr + (cs.length + 1)]? = some c ∧ isNameChar c = false) ∨
     (r.2 = true ∧ cs.length + 1 = 255 ∧ s' = { s with res := s.res ++ c :: cs, charNr := s.charNr + (cs.length + 1), errs := s.errs ++
          [mkErr cfg (s.charNr + (cs.length + 1)) b%"names cannot be longer than 254 chars"] }) ∨
     (r.2 = true ∧ cs.length + 1 ≤ 254 ∧ cfg.query[s.charNr + (cs.length + 1)]? = none ∧
        s' = { s with res := s.res ++ c :: cs, charNr := s.charNr + (cs.length + 1), errs := s.errs ++
        [mkErr cfg (s.charNr + (cs.length + 1)) b%"unexpected EOF"] }))

theorem parseAndWriteName_wp {b cfg s} : wp b parseAndWriteName cfg s (NamePost cfg s) := by
  unfold parseAndWriteName
  wps
  cases hc : cfg.query[s.charNr]? with
  | none =>
    simp only
    wps
    exact Or.inr (Or.inl ⟨rfl, hc, rfl⟩)
  | some c =>
    simp only
    wps
    split
    · rename_i hcc
      refine wp_mono (nameLoop_wp _ _ 1 (by decide) (by simp; omega)) ?_
      rintro r s' ⟨cs, h1, h2, h3⟩
      simp only at h2 h3
      have e : s.charNr + 1 + cs.length = s.charNr + (cs.length + 1) := by omega
      have e2 : (1 : UInt8).toNat + cs.length = cs.length + 1 := by
        rw [show (1 : UInt8).toNat = 1 from rfl]; omega
      refine Or.inr (Or.inr ⟨c, cs, hcc, h1, ?_, ?_⟩)
      · rw [drop_eq_cons hc, h2, e]; simp
      · rw [e, e2] at h3
        simpa [List.append_assoc] using h3
    · rename_i hcc
      exact Or.inl ⟨rfl, rfl, c, hc, by simpa using hcc⟩

/-- Summary for soundness: critical return, nothing, or a well-formed name. -/
theorem parseAndWriteName_sound {b cfg s} : wp b parseAndWriteName cfg s (fun r s' =>
    (r.2 = true ∧ ∃ out p m t, s.charNr ≤ p ∧
      s' = { s with res := s.res ++ out, charNr := p, errs := s.errs ++ [mkErr cfg t m] }) ∨
    (r = (0, false) ∧ s' = s ∧ s.charNr < cfg.query.length) ∨
    (r.2 = false ∧ ∃ name, IsName name ∧ r.1.toNat = name.length ∧ s.charNr + name.length < cfg.query.length ∧
      s' = { s with res := s.res ++ name, charNr := s.charNr + name.length })) := by
  refine wp_mono parseAndWriteName_wp ?_
  rintro r s' (⟨rfl, rfl, c, hc, _⟩ | ⟨h1, h2, rfl⟩ | ⟨c, cs, h1, h2, h3, h⟩)
  · exact Or.inr (Or.inl ⟨rfl, rfl, query_lt hc⟩)
  · exact Or.inl ⟨h1, [], s.charNr, _, _, Nat.le_refl _, by simp; rfl⟩
  · rcases h with ⟨h4, h5, h6, rfl, c', h7, _⟩ | ⟨h4, h5, rfl⟩ | ⟨h4, h5, h6, rfl⟩
    · refine Or.inr (Or.inr ⟨h4, c :: cs, ⟨by simpa using h5, c, cs, rfl, (isNameStart_iff c).mp h1, ?_⟩, ?_, ?_, rfl⟩)
      · intro x hx; exact (isNameChar_iff x).mp (h2 x hx)
      · simpa using h6
      · have := query_lt h7
        simp; omega
    · exact Or.inl ⟨h4, _, _, _, _, by omega, rfl⟩
    · exact Or.inl ⟨h4, _, _, _, _, by omega, rfl⟩

/-- `matchesWord`: a key followed by a non-name character (or the end) stands here, or nothing changes. -/
theorem matchesWord_wp {b cfg s} (keys : List Bytes) (hk : ∀ key ∈ keys, key ≠ []) :
    wp b (matchesWord keys) cfg s (fun r s' =>
      (r = none ∧ s' = s ∧ ((∀ key ∈ keys, ¬ At cfg.query s.charNr key) ∨
        ∃ key ∈ keys, At cfg.query s.charNr key ∧ ∃ c, cfg.query[s.charNr + key.length]? = some c ∧ isNameChar c = true)) ∨
      (∃ m key, r = some m ∧ keys[m]? = some key ∧ At cfg.query s.charNr key ∧
        s' = { s with charNr := s.charNr + key.length } ∧
        ∀ c, cfg.query[s.charNr + key.length]? = some c → isNameChar c = false)) := by
  unfold matchesWord
  wps
  refine wp_mono (matchesKw_wp keys hk) ?_
  rintro r s' (⟨rfl, rfl, h⟩ | ⟨m, key, rfl, hg, hat, rfl⟩)
  · simp only
    wps
    exact Or.inl ⟨by trivial, by trivial, Or.inl h⟩
  · simp only
    wps
    cases hc : cfg.query[s.charNr + key.length]? with
    | none =>
      simp only
      wps
      exact Or.inr ⟨m, key, rfl, hg, hat, rfl, by simp [hc]⟩
    | some c =>
      simp only
      wps
      split
      · rename_i hcc
        exact Or.inl ⟨by trivial, by trivial, Or.inr ⟨key, List.mem_of_getElem? hg, hat, c, hc, hcc⟩⟩
      · rename_i hcc
        exact Or.inr ⟨m, key, rfl, hg, hat, rfl, by simpa [hc] using hcc⟩

end Parser
end Yarql
