import Verif.Proofs.SelSound

/-! # Completeness: tokens

`Rem cfg p ts`: from position `p` on, the query spells the tokens `ts` (after ignored text).
`AtTok cfg p t ts`: position `p` is the first character of token `t`, and `ts` follow. -/

namespace Yarql
namespace Parser
open Grammar Doc

def GoodTok : Tok → Prop
  | .punct c => ¬ IgnStart c
  | .name n => IsName n
  | .word n => IsName n
  | .sigil c n => ¬ IgnStart c ∧ IsName n
  | _ => True

def Rem (cfg : PCfg) (p : Nat) (ts : List Tok) : Prop := Lex ts (cfg.query.drop p) ∧ ∀ t ∈ ts, GoodTok t

def AtTok (cfg : PCfg) (p : Nat) (t : Tok) (ts : List Tok) : Prop :=
  LexAt (t :: ts) (cfg.query.drop p) ∧ ∀ x ∈ t :: ts, GoodTok x

/-- first characters of a number -/
def NumStart (c : Byte) : Prop := c = c%'-' ∨ c = c%'+' ∨ c = c%'.' ∨ c%'0' ≤ c ∧ c ≤ c%'9'

/-- first characters of a token -/
def First : Tok → Byte → Prop
  | .punct c, b => b = c
  | .sigil c _, b => b = c
  | .dots, b => b = c%'.'
  | .listEnd, b => b = c%']'
  | .listEndBang, b => b = c%']'
  | .name _, b => NameStart b
  | .word _, b => NameStart b
  | .num _, b => NumStart b
  | .str _, b => b = c%'"'

theorem nameStart_ne {c : Byte} (h : NameStart c) {k : Byte} (hk : ¬ NameStart k) : c ≠ k := by
  rintro rfl; exact hk h

theorem nameStart_tok {c : Byte} (h : NameStart c) : ¬ IgnStart c := by
  rintro ((rfl | rfl | rfl | rfl | rfl) | rfl) <;> (revert h; unfold NameStart; decide)

theorem numStart_tok {c : Byte} (h : NumStart c) : ¬ IgnStart c := by
  rintro ((rfl | rfl | rfl | rfl | rfl) | rfl) <;> (revert h; unfold NumStart; decide)

theorem _root_.Yarql.Grammar.Spell.first {t : Tok} {sp : Bytes} (h : Spell t sp) (hg : GoodTok t) :
    ∃ c r, sp = c :: r ∧ First t c ∧ ¬ IgnStart c := by
  cases h with
  | punct => exact ⟨_, _, rfl, rfl, hg⟩
  | sigil => exact ⟨_, _, rfl, rfl, hg.1⟩
  | dots => exact ⟨_, _, rfl, rfl, by simp [IgnStart, Blank]⟩
  | listEnd => exact ⟨_, _, rfl, rfl, by simp [IgnStart, Blank]⟩
  | listEndBang => exact ⟨_, _, rfl, rfl, by simp [IgnStart, Blank]⟩
  | name =>
    obtain ⟨_, c, cs, rfl, hc, _⟩ := hg
    exact ⟨c, cs, rfl, hc, nameStart_tok hc⟩
  | word =>
    obtain ⟨_, c, cs, rfl, hc, _⟩ := hg
    exact ⟨c, cs, rfl, hc, nameStart_tok hc⟩
  | num h =>
    cases h with
    | mk _ _ _ _ h =>
      obtain ⟨c, r, h, hc⟩ := h
      exact ⟨c, r, h, hc, numStart_tok hc⟩
  | str => exact ⟨_, _, rfl, rfl, by simp [IgnStart, Blank]⟩
  | block => exact ⟨_, _, rfl, rfl, by simp [IgnStart, Blank]⟩

theorem _root_.Yarql.Grammar.LexAt.first {t : Tok} {ts : List Tok} {text : Bytes} (h : LexAt (t :: ts) text) (hg : GoodTok t) :
    ∃ c r, text = c :: r ∧ First t c ∧ ¬ IgnStart c := by
  cases h with
  | cons hs _ _ =>
    obtain ⟨c, r, rfl, h1, h2⟩ := hs.first hg
    exact ⟨c, _, rfl, h1, h2⟩

theorem AtTok.first {cfg p t ts} (h : AtTok cfg p t ts) : ∃ c, cfg.query[p]? = some c ∧ First t c := by
  obtain ⟨c, r, h1, h2, _⟩ := h.1.first (h.2 _ List.mem_cons_self)
  exact ⟨c, get_of_drop h1, h2⟩

theorem AtTok.rem {cfg p t ts} (h : AtTok cfg p t ts) : Rem cfg p (t :: ts) :=
  ⟨by simpa using Lex.mk Ignored.nil h.1, h.2⟩

theorem Rem.ne {cfg p t ts} (h : Rem cfg p (t :: ts)) : ∃ c r, cfg.query.drop p = c :: r := by
  obtain ⟨h, hg⟩ := h
  generalize cfg.query.drop p = text at h
  cases h with
  | mk hi hl =>
    obtain ⟨c, r, rfl, _⟩ := hl.first (hg _ List.mem_cons_self)
    cases hi with
    | nil => exact ⟨_, _, rfl⟩
    | blank => exact ⟨_, _, rfl⟩
    | comment => exact ⟨_, _, rfl⟩

theorem mightIgnore_rem {b cfg s t ts} (h : Rem cfg s.charNr (t :: ts)) :
    wp b mightIgnore cfg s (fun r s' => ∃ c p, r = some c ∧ s' = { s with charNr := p } ∧ First t c ∧ cfg.query[p]? = some c ∧
      AtTok cfg p t ts) := by
  obtain ⟨h, hg⟩ := h
  generalize ht : cfg.query.drop s.charNr = text at h
  cases h with
  | mk hi hl =>
    obtain ⟨c, r, hr, h1, h2⟩ := hl.first (hg _ List.mem_cons_self)
    rw [hr] at hl ht
    refine wp_mono (mightIgnore_exact ht hi ?_) ?_
    · rintro c' r' h'
      injection h' with h' _
      rw [← h']; exact h2
    · rintro _ _ ⟨rfl, p, rfl, hp⟩
      exact ⟨c, p, rfl, rfl, h1, get_of_drop hp, by rw [hp]; exact hl, hg⟩

theorem mightIgnore_end {b cfg s} (h : Rem cfg s.charNr []) :
    wp b mightIgnore cfg s (fun r s' => r = none ∧ ∃ p, s' = { s with charNr := p }) := by
  obtain ⟨h, _⟩ := h
  generalize ht : cfg.query.drop s.charNr = text at h
  cases h with
  | trailing h =>
    refine wp_mono (mightIgnore_trailing ht h) ?_
    rintro _ _ ⟨rfl, p, rfl, _⟩
    exact ⟨rfl, p, rfl⟩

theorem AtTok.punct {cfg p c ts} (h : AtTok cfg p (.punct c) ts) : cfg.query[p]? = some c ∧ Rem cfg (p + 1) ts := by
  obtain ⟨h, hg⟩ := h
  generalize ht : cfg.query.drop p = text at h
  cases h with
  | cons hs _ hl =>
    cases hs
    have ht' : cfg.query.drop p = c :: _ := ht
    refine ⟨get_of_drop ht', ?_, fun t h => hg t (List.mem_cons_of_mem _ h)⟩
    rw [drop_succ_of ht']; exact hl

theorem AtTok.bracket {cfg p ts} (h : AtTok cfg p .listEnd ts) : cfg.query[p]? = some c%']' ∧ Rem cfg (p + 1) ts ∧
    cfg.query[p + 1]? ≠ some c%'!' := by
  obtain ⟨h, hg⟩ := h
  generalize ht : cfg.query.drop p = text at h
  cases h with
  | cons hs hsep hl =>
    cases hs
    have ht' : cfg.query.drop p = c%']' :: _ := ht
    have h2 := drop_succ_of ht'
    refine ⟨get_of_drop ht', ⟨by rw [h2]; exact hl, fun t h => hg t (List.mem_cons_of_mem _ h)⟩, ?_⟩
    intro h3
    have h4 := drop_eq_cons h3
    rw [h2] at h4
    exact hsep _ _ h4 rfl

theorem AtTok.dots {cfg p ts} (h : AtTok cfg p .dots ts) : At cfg.query p b%"..." ∧ Rem cfg (p + 3) ts := by
  obtain ⟨h, hg⟩ := h
  generalize ht : cfg.query.drop p = text at h
  cases h with
  | cons hs _ hl =>
    cases hs
    refine ⟨at_iff_prefix.mpr ⟨_, ht⟩, ?_, fun t h => hg t (List.mem_cons_of_mem _ h)⟩
    have h3 : cfg.query.drop (p + 3) = _ := drop_add ht
    rw [h3]; exact hl

theorem AtTok.listEndBang {cfg p ts} (h : AtTok cfg p .listEndBang ts) :
    cfg.query[p]? = some c%']' ∧ cfg.query[p + 1]? = some c%'!' ∧ Rem cfg (p + 2) ts := by
  obtain ⟨h, hg⟩ := h
  generalize ht : cfg.query.drop p = text at h
  cases h with
  | cons hs _ hl =>
    cases hs
    have ht' : cfg.query.drop p = c%']' :: (c%'!' :: _) := ht
    have h2 := drop_succ_of ht'
    refine ⟨get_of_drop ht', get_of_drop h2, ?_, fun t h => hg t (List.mem_cons_of_mem _ h)⟩
    rw [drop_succ_of h2]; exact hl

/-! ## Runs of characters -/

theorem run_le {P : Byte → Prop} : ∀ {a r b r' : Bytes}, (∀ x ∈ a, P x) → Stops P r' → a ++ r = b ++ r' → a.length ≤ b.length
  | [], _, _, _, _, _, _ => by simp
  | x :: a, r, [], r', ha, hr, h => by
    exact absurd (ha x (by simp)) (hr x (a ++ r) (by simpa using h.symm))
  | x :: a, r, y :: b, r', ha, hr, h => by
    simp only [List.cons_append, List.cons.injEq] at h
    have := run_le (fun x hx => ha x (by simp [hx])) hr h.2
    simpa using this

theorem run_unique {P : Byte → Prop} {a r b r' : Bytes} (ha : ∀ x ∈ a, P x) (hb : ∀ x ∈ b, P x) (hr : Stops P r)
    (hr' : Stops P r') (h : a ++ r = b ++ r') : a = b ∧ r = r' := by
  have h1 := run_le ha hr' h
  have h2 := run_le hb hr h.symm
  exact List.append_inj h (by omega)

theorem _root_.Yarql.Doc.IsName.chars {n : Bytes} (h : IsName n) : ∀ x ∈ n, NameChar x := by
  obtain ⟨_, c, cs, rfl, hc, hcs⟩ := h
  intro x hx
  rcases List.mem_cons.mp hx with rfl | hx
  · exact Or.inl hc
  · exact hcs x hx

/-- What a name token means for the query. -/
theorem AtTok.name {cfg p n ts} (h : AtTok cfg p (.name n) ts) :
    IsName n ∧ cfg.query.drop p = n ++ cfg.query.drop (p + n.length) ∧ Stops NameChar (cfg.query.drop (p + n.length)) ∧
      Rem cfg (p + n.length) ts := by
  obtain ⟨h, hg⟩ := h
  have hn := hg _ List.mem_cons_self
  generalize ht : cfg.query.drop p = text at h
  cases h with
  | cons hs hsep hl =>
    cases hs
    have := drop_add ht
    rw [this]
    exact ⟨hn, rfl, hsep, by rw [this]; exact hl, fun t h => hg t (List.mem_cons_of_mem _ h)⟩

theorem AtTok.word {cfg p n ts} (h : AtTok cfg p (.word n) ts) :
    IsName n ∧ cfg.query.drop p = n ++ cfg.query.drop (p + n.length) ∧ Rem cfg (p + n.length) ts := by
  obtain ⟨h, hg⟩ := h
  have hn := hg _ List.mem_cons_self
  generalize ht : cfg.query.drop p = text at h
  cases h with
  | cons hs hsep hl =>
    cases hs
    have := drop_add ht
    rw [this]
    exact ⟨hn, rfl, by rw [this]; exact hl, fun t h => hg t (List.mem_cons_of_mem _ h)⟩

theorem parseName_tok {cfg s n t ts} (h : AtTok cfg s.charNr (.name n) (t :: ts)) :
    wp True parseAndWriteName cfg s (fun r s' => r.2 = false ∧ r.1.toNat = n.length ∧ (r.1 == 0) = false ∧ r.1 = UInt8.ofNat n.length ∧
      s' = { s with res := s.res ++ n, charNr := s.charNr + n.length } ∧ Rem cfg (s.charNr + n.length) (t :: ts)) := by
  obtain ⟨hn, hd, hst, hrem⟩ := h.name
  have hst' : Stops (fun x => isNameChar x = true) (cfg.query.drop (s.charNr + n.length)) := by
    intro c r h; simp only [isNameChar_iff]; exact hst c r h
  have hns : ∀ x ∈ n, isNameChar x = true := fun x hx => (isNameChar_iff x).mpr (hn.chars x hx)
  refine wp_mono parseAndWriteName_wp ?_
  rintro ⟨k, crit⟩ s' (⟨h1, rfl, c, hc, hns2⟩ | ⟨_, h2, _⟩ | ⟨c, cs, h1, h2, h3, h4⟩)
  · exfalso
    obtain ⟨_, c', cs, rfl, hc', _⟩ := hn
    rw [get_of_drop hd] at hc
    injection hc with hc
    subst hc
    rw [(isNameStart_iff _).mpr hc'] at hns2
    cases hns2
  · exfalso
    obtain ⟨_, c', cs, rfl, hc', _⟩ := hn
    rw [get_of_drop hd] at h2
    cases h2
  · have hall : ∀ x ∈ c :: cs, isNameChar x = true := by
      intro x hx
      rcases List.mem_cons.mp hx with rfl | hx
      · exact isNameChar_of_start h1
      · exact h2 x hx
    have hle := run_le hall hst' (h3.symm.trans hd)
    rcases h4 with ⟨h4, h5, h6, rfl, c', h7, h8⟩ | ⟨h4, h5, rfl⟩ | ⟨h4, h5, h6, rfl⟩
    · have hst2 : Stops (fun x => isNameChar x = true) (cfg.query.drop (s.charNr + (cs.length + 1))) := by
        intro c r h
        have := get_of_drop h
        rw [h7] at this
        injection this with this
        subst this
        simp [h8]
      obtain ⟨rfl, _⟩ := run_unique hall hns hst2 hst' (h3.symm.trans hd)
      have hk : k.toNat = (c :: cs).length := by simpa using h6
      exact ⟨h4, hk, name_ne_zero hn hk, u8_ofNat_of hk, rfl, hrem⟩
    · exfalso
      have := hn.1
      simp at hle
      omega
    · exfalso
      obtain ⟨c1, r1, h7⟩ := hrem.ne
      have h9 := query_none h6
      have h8 := query_lt (get_of_drop h7)
      simp at hle
      omega

/-- After its sign, a variable or directive token is a name. -/
theorem AtTok.sigil {cfg p c n ts} (h : AtTok cfg p (.sigil c n) ts) : cfg.query[p]? = some c ∧ AtTok cfg (p + 1) (.name n) ts := by
  obtain ⟨h, hg⟩ := h
  have hn := hg _ List.mem_cons_self
  generalize ht : cfg.query.drop p = text at h
  cases h with
  | cons hs hsep hl =>
    cases hs
    have ht' : cfg.query.drop p = c :: (n ++ _) := ht
    refine ⟨get_of_drop ht', ?_, ?_⟩
    · rw [drop_succ_of ht']; exact LexAt.cons Spell.name hsep hl
    · intro x hx
      rcases List.mem_cons.mp hx with rfl | hx
      · exact hn.2
      · exact hg x (List.mem_cons_of_mem _ hx)

/-- A keyword match at a name token. -/
theorem matchesWord_tok {b cfg s n ts} (keys : List Bytes) (hk : ∀ k ∈ keys, IsName k)
    (hp : ∀ k ∈ keys, ∀ k' ∈ keys, k <+: k' → k = k') (h : AtTok cfg s.charNr (.name n) ts) :
    wp b (matchesWord keys) cfg s (fun r s' => (r = none ∧ s' = s ∧ n ∉ keys) ∨
      (∃ m, r = some m ∧ keys[m]? = some n ∧ s' = { s with charNr := s.charNr + n.length } ∧ Rem cfg (s.charNr + n.length) ts)) := by
  obtain ⟨hn, hd, hst, hrem⟩ := h.name
  refine wp_mono (matchesWord_wp keys (fun k hk' => by have := name_pos (hk k hk'); rintro rfl; simp at this)) ?_
  rintro r s' (⟨rfl, rfl, h1 | ⟨k, hk1, hat, c, hc, hcc⟩⟩ | ⟨m, k, rfl, hg, hat, rfl, hc⟩)
  · refine Or.inl ⟨rfl, rfl, fun hmem => h1 n hmem (at_iff_prefix.mpr ⟨_, hd⟩)⟩
  · refine Or.inl ⟨rfl, rfl, fun hmem => ?_⟩
    obtain ⟨r, hr⟩ := at_iff_prefix.mp hat
    have h2 := drop_add hr
    have h3 := drop_eq_cons hc
    rw [h2] at h3
    subst h3
    have hle : (k ++ [c]).length ≤ n.length := by
      refine run_le (P := NameChar) ?_ hst (b := n) (by rw [← hd, hr]; simp; rfl)
      intro x hx
      rcases List.mem_append.mp hx with hx | hx
      · exact (hk k hk1).chars x hx
      · simp only [List.mem_singleton] at hx
        subst hx
        exact (isNameChar_iff _).mp hcc
    have hpre : k <+: n := by
      refine List.prefix_of_prefix_length_le ⟨_, hr.symm⟩ ⟨_, hd.symm⟩ ?_
      simp at hle; omega
    have := hp k hk1 n hmem hpre
    subst this
    simp at hle
    omega
  · obtain ⟨r, hr⟩ := at_iff_prefix.mp hat
    have h2 := drop_add hr
    have hkm := List.mem_of_getElem? hg
    obtain ⟨rfl, _⟩ := run_unique (P := NameChar) ((hk k hkm).chars) hn.chars (r := r) (by
      intro c r' h'
      subst h'
      have := hc c (get_of_drop h2)
      rw [← isNameChar_iff]
      simp [this]) hst (hr.symm.trans hd)
    exact Or.inr ⟨m, rfl, hg, rfl, hrem⟩

end Parser
end Yarql
