import Verif.Proofs.LitComplete

/-! # Completeness: string literals -/

namespace Yarql
namespace Parser
open Grammar Doc

theorem hexVal_exact {c : Byte} {d : Nat} (h : HexDigit c d) : ∃ x, hexVal c = some x ∧ x.toNat = d := by
  unfold hexVal
  cases h with
  | dec h1 h2 =>
    refine ⟨c - 48, by rw [if_pos (by simp [h1, h2])], ?_⟩
    rw [UInt8.toNat_sub_of_le _ _ h1]; rfl
  | low h1 h2 =>
    have h1' := UInt8.le_iff_toNat_le.mp h1
    have h2' := UInt8.le_iff_toNat_le.mp h2
    simp at h1' h2'
    refine ⟨c - 97 + 10, ?_, ?_⟩
    · rw [if_neg (by
        simp only [Bool.and_eq_true, decide_eq_true_eq, not_and, UInt8.le_iff_toNat_le]
        intro _; simp; omega), if_pos (by simp [h1, h2])]
    · rw [UInt8.toNat_add, UInt8.toNat_sub_of_le _ _ h1]
      simp; omega
  | upp h1 h2 =>
    have h1' := UInt8.le_iff_toNat_le.mp h1
    have h2' := UInt8.le_iff_toNat_le.mp h2
    simp at h1' h2'
    refine ⟨c - 65 + 10, ?_, ?_⟩
    · rw [if_neg (by
        simp only [Bool.and_eq_true, decide_eq_true_eq, not_and, UInt8.le_iff_toNat_le]
        intro _; simp; omega), if_neg (by
        simp only [Bool.and_eq_true, decide_eq_true_eq, not_and, UInt8.le_iff_toNat_le]
        intro h; simp at h; omega), if_pos (by simp [h1, h2])]
    · rw [UInt8.toNat_add, UInt8.toNat_sub_of_le _ _ h1]
      simp; omega

theorem utf8of_eq (u : Nat) : encodeRune3 (utf16Single u) = utf8of u := rfl

theorem parseEscape_exact {b cfg s e d t} (h : Escape e d) (hq : cfg.query.drop (s.charNr + 1) = e ++ t) :
    wp b parseEscape cfg s (fun r s' => r = none ∧ s' = { s with res := s.res ++ d, charNr := s.charNr + e.length }) := by
  unfold parseEscape
  rw [wp_bind, wp_incPos, wp_bind, wp_getPos, wp_bind, wp_checkC]
  cases h with
  | u h1 h2 h3 h4 =>
    rename_i c1 c2 c3 c4 d1 d2 d3 d4
    have q0 : cfg.query.drop (s.charNr + 1) = c%'u' :: c1 :: c2 :: c3 :: c4 :: t := hq
    have q1 := drop_succ_of q0
    have q2 := drop_succ_of q1
    have q3 := drop_succ_of q2
    have q4 := drop_succ_of q3
    obtain ⟨x1, e1, f1⟩ := hexVal_exact h1
    obtain ⟨x2, e2, f2⟩ := hexVal_exact h2
    obtain ⟨x3, e3, f3⟩ := hexVal_exact h3
    obtain ⟨x4, e4, f4⟩ := hexVal_exact h4
    rw [get_of_drop q0]
    dsimp only
    rw [if_neg (by decide), if_neg (by decide), if_neg (by decide), if_neg (by decide), if_neg (by decide), if_neg (by decide),
      if_neg (by decide), if_pos (by decide)]
    rw [wp_bind, wp_incPos, wp_bind, wp_getPos, wp_bind, wp_checkC, wp_bind, wp_incPos, wp_bind, wp_getPos, wp_bind, wp_checkC,
      wp_bind, wp_incPos, wp_bind, wp_getPos, wp_bind, wp_checkC, wp_bind, wp_incPos, wp_bind, wp_getPos, wp_bind, wp_checkC]
    dsimp only
    rw [get_of_drop q1, get_of_drop q2, get_of_drop q3, get_of_drop q4]
    dsimp only
    have hx : hex4 c1 c2 c3 c4 = some (d1 * 4096 + d2 * 256 + d3 * 16 + d4) := by
      unfold hex4
      rw [e1, e2, e3, e4, ← f1, ← f2, ← f3, ← f4]
      rfl
    simp only [Option.getD_some, hx]
    rw [wp_bind, wp_emit, wp_pure, utf8of_eq]
    exact ⟨rfl, rfl⟩
  | other h0 h1 h2 h3 h4 h5 h6 h7 =>
    rw [get_of_drop (hq : cfg.query.drop (s.charNr + 1) = _ :: t)]
    dsimp only
    unfold LineEnd at h1
    rw [if_neg (by simpa using h0), if_neg (by simpa using h1), if_neg (by simpa using h2), if_neg (by simpa using h3), if_neg (by simpa using h4),
      if_neg (by simpa using h5), if_neg (by simpa using h6), if_neg (by simpa using h7), wp_bind, wp_emit, wp_pure]
    exact ⟨rfl, rfl⟩
  | nul =>
    rw [get_of_drop (hq : cfg.query.drop (s.charNr + 1) = _ :: t)]
    exact ⟨rfl, by simp⟩
  | b => rw [get_of_drop (hq : cfg.query.drop (s.charNr + 1) = _ :: t)]; exact ⟨rfl, rfl⟩
  | f => rw [get_of_drop (hq : cfg.query.drop (s.charNr + 1) = _ :: t)]; exact ⟨rfl, rfl⟩
  | n => rw [get_of_drop (hq : cfg.query.drop (s.charNr + 1) = _ :: t)]; exact ⟨rfl, rfl⟩
  | r => rw [get_of_drop (hq : cfg.query.drop (s.charNr + 1) = _ :: t)]; exact ⟨rfl, rfl⟩
  | t => rw [get_of_drop (hq : cfg.query.drop (s.charNr + 1) = _ :: t)]; exact ⟨rfl, rfl⟩

theorem stringLoop_exact {cfg pre t v} (h : StrChars t v) : ∀ (fuel : Nat) (s : PS) (body rest : Bytes),
    cfg.query.drop (s.charNr + 1) = t ++ c%'"' :: rest → s.res = pre ++ (hdr c%'s' ++ body) →
    wp True (stringLoop false (pre.length + 7) fuel) cfg s (fun crit s' => crit = false ∧
      s' = { s with res := pre ++ encHead c%'s' (body ++ v), charNr := s.charNr + 1 + t.length + 1 }) := by
  induction h with
  | nil =>
    intro fuel s body rest hq hr
    cases fuel with
    | zero => exact trivial
    | succ fuel =>
    unfold stringLoop
    rw [wp_bind, wp_incPos, wp_bind, wp_getPos, wp_bind, wp_checkC]
    rw [get_of_drop (hq : cfg.query.drop (s.charNr + 1) = c%'"' :: rest)]
    dsimp only
    rw [if_neg (by decide), if_neg (by decide), if_pos (by decide), if_pos (by decide), wp_bind, wp_incPos, wp_bind]
    refine closeLen_wp (pre := pre) (k := c%'s') (body := body) hr rfl ?_
    rw [wp_pure]
    exact ⟨rfl, by simp⟩
  | nul _ ih =>
    intro fuel s body rest hq hr
    cases fuel with
    | zero => exact trivial
    | succ fuel =>
    unfold stringLoop
    rw [wp_bind, wp_incPos, wp_bind, wp_getPos, wp_bind, wp_checkC]
    rw [get_of_drop (hq : cfg.query.drop (s.charNr + 1) = 0 :: (_ ++ c%'"' :: rest))]
    dsimp only
    rw [if_pos (by decide)]
    refine wp_mono (ih fuel { s with charNr := s.charNr + 1 } body rest (drop_succ_of hq) hr) ?_
    rintro crit s' ⟨rfl, rfl⟩
    exact ⟨rfl, by simp; omega⟩
  | plain h0 h1 h2 h3 _ ih =>
    intro fuel s body rest hq hr
    rename_i c t v _
    cases fuel with
    | zero => exact trivial
    | succ fuel =>
    unfold stringLoop
    unfold LineEnd at h1
    rw [wp_bind, wp_incPos, wp_bind, wp_getPos, wp_bind, wp_checkC]
    rw [get_of_drop (hq : cfg.query.drop (s.charNr + 1) = c :: (t ++ c%'"' :: rest))]
    dsimp only
    rw [if_neg (by simpa using h0), if_neg (by simpa using h1), if_neg (by simpa using h2), if_neg (by simpa using h3), wp_bind, wp_emit]
    refine wp_mono (ih fuel { s with res := s.res ++ [c], charNr := s.charNr + 1 } (body ++ [c]) rest (drop_succ_of hq) (by simp [hr])) ?_
    rintro crit s' ⟨rfl, rfl⟩
    exact ⟨rfl, by simp; omega⟩
  | esc he _ ih =>
    intro fuel s body rest hq hr
    rename_i e d t v _
    cases fuel with
    | zero => exact trivial
    | succ fuel =>
    unfold stringLoop
    have hq' : cfg.query.drop (s.charNr + 1) = c%'\\' :: (e ++ (t ++ c%'"' :: rest)) := by rw [hq]; simp
    rw [wp_bind, wp_incPos, wp_bind, wp_getPos, wp_bind, wp_checkC]
    rw [get_of_drop hq']
    dsimp only
    rw [if_neg (by decide), if_neg (by decide), if_neg (by decide), if_pos (by decide), wp_bind]
    refine wp_mono (parseEscape_exact he (drop_succ_of hq')) ?_
    rintro _ _ ⟨rfl, rfl⟩
    dsimp only
    refine wp_mono (ih fuel { s with res := s.res ++ d, charNr := s.charNr + 1 + e.length } (body ++ d) rest ?_ (by simp [hr])) ?_
    · have := drop_add (drop_succ_of hq')
      dsimp only
      rw [← this]; congr 1; omega
    · rintro crit s' ⟨rfl, rfl⟩
      exact ⟨rfl, by simp; omega⟩

/-! ## Block strings -/

theorem blockTrimStart_exact {cfg} : ∀ (fuel : Nat) (s : PS) (pad rest : Bytes) (c : Byte), (∀ x ∈ pad, BlockBlank x) → ¬ BlockBlank c →
    cfg.query.drop s.charNr = pad ++ c :: rest → 0 < s.charNr →
    wp True (blockTrimStart fuel) cfg s (fun r s' => r = none ∧ s' = { s with charNr := s.charNr + pad.length - 1 })
  | 0, _, _, _, _, _, _, _, _ => trivial
  | fuel + 1, s, [], rest, c, _, hc, hq, h0 => by
    unfold blockTrimStart
    rw [wp_bind, wp_getPos, wp_bind, wp_checkC, get_of_drop (hq : cfg.query.drop s.charNr = c :: rest)]
    dsimp only
    unfold BlockBlank at hc
    rw [if_neg (by simpa [or_assoc] using hc), wp_bind, wp_decCharNr, if_neg (by omega), wp_pure]
    exact ⟨rfl, rfl⟩
  | fuel + 1, s, x :: pad, rest, c, hp, hc, hq, h0 => by
    unfold blockTrimStart
    rw [wp_bind, wp_getPos, wp_bind, wp_checkC, get_of_drop (hq : cfg.query.drop s.charNr = x :: (pad ++ c :: rest))]
    dsimp only
    have hx := hp x (by simp)
    unfold BlockBlank at hx
    rw [if_pos (by simpa [or_assoc] using hx), wp_bind, wp_incPos]
    refine wp_mono (blockTrimStart_exact fuel { s with charNr := s.charNr + 1 } pad rest c (fun y hy => hp y (by simp [hy])) hc (drop_succ_of hq) (by simp)) ?_
    rintro _ _ ⟨rfl, rfl⟩
    exact ⟨rfl, by simp; try omega⟩

theorem blockIndent_exact {cfg} : ∀ (fuel : Nat) (s : PS) (ind rest : Bytes) (c : Byte), (∀ x ∈ ind, x = c%' ' ∨ x = c%'\t') →
    ¬ (c = c%' ' ∨ c = c%'\t') → cfg.query.drop (s.charNr + 1) = ind ++ c :: rest →
    wp True (blockIndent fuel) cfg s (fun r s' => r = none ∧ s' = { s with charNr := s.charNr + ind.length })
  | 0, _, _, _, _, _, _, _ => trivial
  | fuel + 1, s, [], rest, c, _, hc, hq => by
    unfold blockIndent
    rw [wp_bind, wp_incPos, wp_bind, wp_getPos, wp_bind, wp_checkC, get_of_drop (hq : cfg.query.drop (s.charNr + 1) = c :: rest)]
    dsimp only
    rw [if_neg (by simpa using hc), wp_bind, wp_decCharNr, if_neg (by simp), wp_pure]
    exact ⟨rfl, by simp⟩
  | fuel + 1, s, x :: ind, rest, c, hp, hc, hq => by
    unfold blockIndent
    rw [wp_bind, wp_incPos, wp_bind, wp_getPos, wp_bind, wp_checkC, get_of_drop (hq : cfg.query.drop (s.charNr + 1) = x :: (ind ++ c :: rest))]
    dsimp only
    have hx := hp x (by simp)
    rw [if_pos (by simpa using hx)]
    refine wp_mono (blockIndent_exact fuel { s with charNr := s.charNr + 1 } ind rest c (fun y hy => hp y (by simp [hy])) hc (drop_succ_of hq)) ?_
    rintro _ _ ⟨rfl, rfl⟩
    exact ⟨rfl, by simp; omega⟩

theorem BlockTail.len {t v : Bytes} (h : BlockTail t v) : 3 ≤ t.length := by
  induction h with
  | close => simp
  | nul _ ih => simp; omega
  | plain _ _ _ _ _ ih => simp; omega
  | quote _ _ ih => simp; omega
  | esc _ _ ih => simp; omega
  | line _ _ _ _ ih => simp; omega

theorem matchesKw1 {b cfg s} (key : Bytes) (hk : key ≠ []) :
    wp b (matchesKw [key]) cfg s (fun r s' =>
      (r = none ∧ s' = s ∧ ¬ At cfg.query s.charNr key) ∨
      (r = some 0 ∧ At cfg.query s.charNr key ∧ s' = { s with charNr := s.charNr + key.length })) := by
  refine wp_mono (matchesKw_wp [key] (by simpa using hk)) ?_
  rintro r s' (⟨rfl, rfl, h⟩ | ⟨m, k, rfl, hg, hat, rfl⟩)
  · exact Or.inl ⟨rfl, rfl, h key (by simp)⟩
  · have hm : m = 0 ∧ k = key := by
      cases m with
      | zero => simpa [eq_comm] using hg
      | succ m => simp at hg
    obtain ⟨rfl, rfl⟩ := hm
    exact Or.inr ⟨rfl, hat, rfl⟩

theorem blockLoop_exact {cfg pre t v} (h : BlockTail t v) : ∀ (fuel : Nat) (s : PS) (body rest : Bytes),
    cfg.query.drop (s.charNr + 1) = t ++ rest → s.res = pre ++ (hdr c%'s' ++ body) →
    wp True (stringLoop true (pre.length + 7) fuel) cfg s (fun crit s' => crit = false ∧
      s' = { s with res := pre ++ encHead c%'s' (trimEnd (body ++ v)), charNr := s.charNr + 1 + t.length }) := by
  induction h with
  | close =>
    intro fuel s body rest hq hr
    cases fuel with
    | zero => exact trivial
    | succ fuel =>
    unfold stringLoop
    rw [wp_bind, wp_incPos, wp_bind, wp_getPos, wp_bind, wp_checkC]
    rw [get_of_drop (hq : cfg.query.drop (s.charNr + 1) = c%'"' :: _)]
    dsimp only
    rw [if_neg (by decide), if_neg (by decide), if_pos (by decide), if_neg (by decide), wp_bind]
    refine wp_mono (matchesKw1 b%"\"\"\"" (by simp)) ?_
    rintro r s' (⟨rfl, rfl, h⟩ | ⟨rfl, _, rfl⟩)
    · exact (h (at_iff_prefix.mpr ⟨_, hq⟩)).elim
    · rw [if_pos (by decide), wp_bind, wp_resLen, wp_bind]
      refine wp_mono (blockTrimEnd_exact (pre := pre) (k := c%'s') _ _ body hr (by simp [hr, hdr]; omega)) ?_
      rintro _ _ rfl
      rw [wp_bind]
      refine closeLen_wp (pre := pre) (k := c%'s') (body := trimEnd body) rfl rfl ?_
      rw [wp_pure]
      exact ⟨rfl, by simp⟩
  | nul _ ih =>
    intro fuel s body rest hq hr
    cases fuel with
    | zero => exact trivial
    | succ fuel =>
    unfold stringLoop
    rw [wp_bind, wp_incPos, wp_bind, wp_getPos, wp_bind, wp_checkC]
    rw [get_of_drop (hq : cfg.query.drop (s.charNr + 1) = 0 :: _)]
    dsimp only
    rw [if_pos (by decide)]
    refine wp_mono (ih fuel { s with charNr := s.charNr + 1 } body rest (drop_succ_of hq) hr) ?_
    rintro crit s' ⟨rfl, rfl⟩
    exact ⟨rfl, by simp; omega⟩
  | plain h0 h1 h2 h3 _ ih =>
    intro fuel s body rest hq hr
    rename_i c t v _
    cases fuel with
    | zero => exact trivial
    | succ fuel =>
    unfold stringLoop
    unfold LineEnd at h1
    rw [wp_bind, wp_incPos, wp_bind, wp_getPos, wp_bind, wp_checkC]
    rw [get_of_drop (hq : cfg.query.drop (s.charNr + 1) = c :: (t ++ rest))]
    dsimp only
    rw [if_neg (by simpa using h0), if_neg (by simpa using h1), if_neg (by simpa using h2), if_neg (by simpa using h3), wp_bind, wp_emit]
    refine wp_mono (ih fuel { s with res := s.res ++ [c], charNr := s.charNr + 1 } (body ++ [c]) rest (drop_succ_of hq) (by simp [hr])) ?_
    rintro crit s' ⟨rfl, rfl⟩
    exact ⟨rfl, by simp; omega⟩
  | quote hn ht ih =>
    intro fuel s body rest hq hr
    rename_i t v
    cases fuel with
    | zero => exact trivial
    | succ fuel =>
    unfold stringLoop
    rw [wp_bind, wp_incPos, wp_bind, wp_getPos, wp_bind, wp_checkC]
    rw [get_of_drop (hq : cfg.query.drop (s.charNr + 1) = c%'"' :: (t ++ rest))]
    dsimp only
    rw [if_neg (by decide), if_neg (by decide), if_pos (by decide), if_neg (by decide), wp_bind]
    refine wp_mono (matchesKw1 b%"\"\"\"" (by simp)) ?_
    rintro r s' (⟨rfl, rfl, h⟩ | ⟨rfl, h, rfl⟩)
    · rw [if_neg (by decide), if_neg (by decide), wp_bind, wp_emit]
      refine wp_mono (ih fuel { s with res := s.res ++ [c%'"'], charNr := s.charNr + 1 } (body ++ [c%'"']) rest (drop_succ_of hq) (by simp [hr])) ?_
      rintro crit s' ⟨rfl, rfl⟩
      exact ⟨rfl, by simp; omega⟩
    · exfalso
      obtain ⟨r, h⟩ := at_iff_prefix.mp h
      have hq' : cfg.query.drop (s.charNr + 1) = c%'"' :: (t ++ rest) := hq
      rw [hq'] at h
      have hl := BlockTail.len ht
      match t, hl with
      | a :: b :: t', _ =>
        simp only [List.cons_append, List.cons.injEq, List.nil_append, true_and] at h
        obtain ⟨rfl, rfl, _⟩ := h
        exact hn _ rfl
  | esc he _ ih =>
    intro fuel s body rest hq hr
    rename_i e d t v _
    cases fuel with
    | zero => exact trivial
    | succ fuel =>
    unfold stringLoop
    have hq' : cfg.query.drop (s.charNr + 1) = c%'\\' :: (e ++ (t ++ rest)) := by rw [hq]; simp
    rw [wp_bind, wp_incPos, wp_bind, wp_getPos, wp_bind, wp_checkC]
    rw [get_of_drop hq']
    dsimp only
    rw [if_neg (by decide), if_neg (by decide), if_neg (by decide), if_pos (by decide), wp_bind]
    refine wp_mono (parseEscape_exact he (drop_succ_of hq')) ?_
    rintro _ _ ⟨rfl, rfl⟩
    dsimp only
    refine wp_mono (ih fuel { s with res := s.res ++ d, charNr := s.charNr + 1 + e.length } (body ++ d) rest ?_ (by simp [hr])) ?_
    · have := drop_add (drop_succ_of hq')
      dsimp only
      rw [← this]; congr 1; omega
    · rintro crit s' ⟨rfl, rfl⟩
      exact ⟨rfl, by simp; omega⟩
  | line hlb hind hst ht ih =>
    intro fuel s body rest hq hr
    rename_i lb ind t v
    cases fuel with
    | zero => exact trivial
    | succ fuel =>
    unfold stringLoop
    have hlen := BlockTail.len ht
    obtain ⟨c0, t0, rfl⟩ : ∃ c r, t = c :: r := by
      cases t with
      | nil => simp at hlen
      | cons c r => exact ⟨c, r, rfl⟩
    -- what follows the line break
    have go : ∀ (s1 : PS), s1.res = pre ++ (hdr c%'s' ++ (body ++ lb)) → s1.charNr = s.charNr + lb.length →
        s1 = { s with res := s1.res, charNr := s1.charNr } →
        wp True (do
          match ← blockIndent (← loopFuel) with
          | some crit => return crit
          | none => stringLoop true (pre.length + 7) fuel) cfg s1 (fun crit s' => crit = false ∧
      s' = { s with res := pre ++ encHead c%'s' (trimEnd (body ++ (lb ++ v))), charNr := s.charNr + 1 + (lb ++ (ind ++ c0 :: t0)).length }) := by
      intro s1 hres1 hpos1 hs1
      have hq1 : cfg.query.drop (s1.charNr + 1) = ind ++ c0 :: (t0 ++ rest) := by
        have hq' : cfg.query.drop (s.charNr + 1) = lb ++ (ind ++ c0 :: (t0 ++ rest)) := by rw [hq]; simp
        rw [← drop_add hq', hpos1]; congr 1; omega
      rw [wp_bind, wp_loopFuel, wp_bind]
      refine wp_mono (blockIndent_exact _ s1 ind (t0 ++ rest) c0 hind (hst _ _ rfl) hq1) ?_
      rintro _ _ ⟨rfl, rfl⟩
      dsimp only
      refine wp_mono (ih fuel { s1 with charNr := s1.charNr + ind.length } (body ++ lb) rest ?_ hres1) ?_
      · dsimp only
        rw [show s1.charNr + ind.length + 1 = s1.charNr + 1 + ind.length by omega, drop_add hq1]; rfl
      · rintro crit s' ⟨rfl, rfl⟩
        refine ⟨rfl, ?_⟩
        rw [hs1]
        simp
        omega
    rw [wp_bind, wp_incPos, wp_bind, wp_getPos, wp_bind, wp_checkC]
    rcases hlb with rfl | rfl | ⟨rfl, hlb⟩
    · rw [get_of_drop (hq : cfg.query.drop (s.charNr + 1) = c%'\n' :: _)]
      dsimp only
      rw [if_neg (by decide), if_pos (by decide), if_neg (by decide), wp_bind, wp_emit, if_neg (by decide)]
      exact go { s with res := s.res ++ [c%'\n'], charNr := s.charNr + 1 } (by simp [hr]) rfl rfl
    · have hq0 : cfg.query.drop (s.charNr + 1) = c%'\r' :: c%'\n' :: _ := hq
      rw [get_of_drop hq0]
      dsimp only
      rw [if_neg (by decide), if_pos (by decide), if_neg (by decide), wp_bind, wp_emit, if_pos (by decide), wp_bind, wp_getPos, wp_bind, wp_checkC]
      dsimp only
      rw [get_of_drop (drop_succ_of hq0), if_pos (by decide), wp_bind, wp_emit, wp_bind, wp_incPos]
      exact go { s with res := s.res ++ [c%'\r'] ++ [c%'\n'], charNr := s.charNr + 1 + 1 } (by simp [hr]) rfl rfl
    · have hq0 : cfg.query.drop (s.charNr + 1) = c%'\r' :: (ind ++ c0 :: t0 ++ rest) := by rw [hq]; simp
      have hq1 := drop_succ_of hq0
      rw [get_of_drop hq0]
      dsimp only
      rw [if_neg (by decide), if_pos (by decide), if_neg (by decide), wp_bind, wp_emit, if_pos (by decide), wp_bind, wp_getPos, wp_bind, wp_checkC]
      dsimp only
      have hne : ¬ (cfg.query[s.charNr + 1 + 1]? == some c%'\n') = true := by
        have : ∃ x r, ind ++ c0 :: t0 = x :: r := by cases ind <;> exact ⟨_, _, rfl⟩
        obtain ⟨x, r, hx⟩ := this
        rw [hx] at hq1
        rw [get_of_drop hq1]
        have := hlb x r hx
        simpa using this
      rw [if_neg hne]
      exact go { s with res := s.res ++ [c%'\r'], charNr := s.charNr + 1 } (by simp [hr]) rfl rfl

/-- A string token. -/
theorem parseString_tok {cfg s v ts} (h : AtTok cfg s.charNr (.str v) ts) :
    wp True parseStringInputValue cfg s (fun crit s' => crit = false ∧ ∃ p,
      s' = { s with res := s.res ++ encHead c%'s' v, charNr := p } ∧ Rem cfg p ts) := by
  obtain ⟨h, hg⟩ := h
  generalize hq : cfg.query.drop s.charNr = text at h
  have hlen : (s.res ++ [0, 118, 115, 0, 0, 0, 0] : Bytes).length = s.res.length + 7 := by simp
  unfold parseStringInputValue instructionNewValueString
  rw [wp_bind, wp_emit, wp_bind, wp_resLen, wp_bind]
  dsimp only
  rw [hlen]
  cases h with
  | cons hs hsep hl =>
  have hgr : ∀ t ∈ ts, GoodTok t := fun x hx => hg x (List.mem_cons_of_mem _ hx)
  rename_i sp rest
  cases hs with
  | str hs =>
    rename_i t
    have hq' : cfg.query.drop s.charNr = c%'"' :: (t ++ c%'"' :: rest) := by rw [hq]; simp
    refine wp_mono (matchesKw1 b%"\"\"\"" (by simp)) ?_
    rintro r s' (⟨rfl, rfl, h⟩ | ⟨rfl, h, rfl⟩)
    · rw [if_neg (by decide), wp_bind, wp_loopFuel]
      refine wp_mono (stringLoop_exact (pre := s.res) hs _ _ [] rest (drop_succ_of hq') (by simp [hdr])) ?_
      rintro crit s' ⟨rfl, rfl⟩
      refine ⟨rfl, _, by simp; rfl, ?_⟩
      have h1 := drop_succ_of (drop_add (drop_succ_of hq'))
      exact ⟨by rw [h1]; exact hl, hgr⟩
    · exfalso
      obtain ⟨r, h⟩ := at_iff_prefix.mp h
      dsimp only at h
      rw [hq'] at h
      simp only [List.cons_append, List.cons.injEq, List.nil_append, true_and] at h
      cases hs with
      | nil =>
        simp only [List.nil_append, List.cons.injEq, true_and] at h
        exact hsep rfl _ _ h rfl
      | nul _ => simp at h
      | plain h0 h1 h2 h3 _ =>
        simp only [List.cons_append, List.cons.injEq] at h
        exact h2 h.1
      | esc _ _ => simp at h
  | block hpad hst ht =>
    rename_i pad t v
    have hq' : cfg.query.drop s.charNr = b%"\"\"\"" ++ (pad ++ (t ++ rest)) := by rw [hq]; simp
    refine wp_mono (matchesKw1 b%"\"\"\"" (by simp)) ?_
    rintro r s' (⟨rfl, rfl, h⟩ | ⟨rfl, h, rfl⟩)
    · exact (h (at_iff_prefix.mpr ⟨_, hq'⟩)).elim
    · rw [if_pos (by decide), wp_bind, wp_loopFuel, wp_bind]
      have hlen := BlockTail.len ht
      obtain ⟨c0, t0, rfl⟩ : ∃ c r, t = c :: r := by
        cases t with
        | nil => simp at hlen
        | cons c r => exact ⟨c, r, rfl⟩
      have hq2 : cfg.query.drop (s.charNr + 3) = pad ++ (c0 :: t0 ++ rest) := drop_add hq'
      refine wp_mono (blockTrimStart_exact _ _ pad (t0 ++ rest) c0 hpad (hst _ _ rfl) hq2 (by simp)) ?_
      rintro _ _ ⟨rfl, rfl⟩
      dsimp only
      rw [wp_bind, wp_loopFuel]
      have hq3 := drop_add hq2
      refine wp_mono (blockLoop_exact (pre := s.res) ht _ _ [] rest ?_ (by simp [hdr])) ?_
      · dsimp only
        rw [← hq3]; congr 1; simp; omega
      · rintro crit s' ⟨rfl, rfl⟩
        refine ⟨rfl, _, by simp; rfl, ?_⟩
        have h1 := drop_add hq3
        refine ⟨?_, hgr⟩
        rw [← h1] at hl
        have e : s.charNr + 2 + pad.length + 1 + (t0.length + 1) = s.charNr + 3 + pad.length + (c0 :: t0).length := by simp; omega
        rw [e]; exact hl

end Parser
end Yarql
