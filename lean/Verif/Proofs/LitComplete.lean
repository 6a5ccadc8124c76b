import Verif.Proofs.TokComplete

/-! # Completeness: number and string literals -/

namespace Yarql
namespace Parser
open Grammar Doc

/-! ## Numbers -/

/-- What may follow a number (as in `Separated`). -/
def NumSep (c : Byte) : Prop :=
  Blank c ∨ c = c%'#' ∨ c = c%',' ∨ c = c%'!' ∨ c = c%'$' ∨ c = c%'(' ∨ c = c%')' ∨ c = c%':' ∨ c = c%'=' ∨
        c = c%'@' ∨ c = c%'[' ∨ c = c%']' ∨ c = c%'{' ∨ c = c%'|' ∨ c = c%'}'

theorem NumSep.facts {c : Byte} (h : NumSep c) : NumStop c ∧ isDigit c = false ∧ c ≠ c%'_' ∧ c ≠ c%'.' ∧ c ≠ c%'e' ∧ c ≠ c%'E' := by
  have h1 : NumStop c := by
    unfold NumStop IgnStart
    rcases h with h | h | h | h
    · exact Or.inr (Or.inl (Or.inl h))
    · exact Or.inr (Or.inl (Or.inr h))
    · exact Or.inr (Or.inr h)
    · left
      rcases h with rfl | rfl | rfl | rfl | rfl | rfl | rfl | rfl | rfl | rfl | rfl | rfl <;> decide
  refine ⟨h1, ?_⟩
  rcases h with (rfl | rfl | rfl | rfl | rfl) | rfl | rfl | rfl | rfl | rfl | rfl | rfl | rfl | rfl | rfl | rfl | rfl | rfl | rfl <;> decide

theorem DigitRun.facts {t ds : Bytes} (h : DigitRun t ds) :
    (∀ x ∈ t, isDigit x = true ∨ x = c%'_') ∧ t.filter isDigit = ds := by
  induction h with
  | nil => simp
  | digit hd _ ih =>
    rename_i d _ _ _
    have : isDigit d = true := by simpa [isDigit] using hd
    refine ⟨?_, by simp [this, ih.2]⟩
    intro x hx
    rcases List.mem_cons.mp hx with rfl | hx
    · exact Or.inl this
    · exact ih.1 x hx
  | sep _ ih =>
    refine ⟨?_, ?_⟩
    · intro x hx
      rcases List.mem_cons.mp hx with rfl | hx
      · exact Or.inr rfl
      · exact ih.1 x hx
    · rw [List.filter_cons_of_neg (by decide)]; exact ih.2

/-- Digits and separators -/
def DigitUs (x : Byte) : Prop := isDigit x = true ∨ x = c%'_'

theorem numEnd_rem {cfg n p t ts} (h : NumEnd cfg n p) (hr : Rem cfg n (t :: ts)) : Rem cfg p (t :: ts) := by
  obtain ⟨hl, hg⟩ := hr
  refine ⟨?_, hg⟩
  generalize ht : cfg.query.drop n = text at hl
  cases hl with
  | mk hi hl =>
    obtain ⟨c, r, hr, h1, h2⟩ := hl.first (hg _ List.mem_cons_self)
    obtain ⟨ign', h3, h4⟩ := h.2.2 _ _ ht hi (by
      rintro c' r' h'
      rw [hr] at h'
      injection h' with h' _
      rw [← h']; exact h2)
    rw [h3]
    exact Lex.mk h4 hl

/-- Exact outcome of a digit loop over a run `t` followed by `c`. -/
theorem RunPost.exact {cfg pre k body s n0 stop close r s'} (h : RunPost cfg pre k body s n0 stop close r s') {t ds rest : Bytes} {c : Byte}
    (ht : DigitRun t ds) (hq : cfg.query.drop n0 = t ++ c :: rest) (hc : isDigit c = false ∧ c ≠ c%'_')
    (hs : stop c ∨ NumStop c ∧ c ≠ c%'.' ∧ c ≠ c%'e' ∧ c ≠ c%'E') :
    (stop c ∧ r = .brk c ∧ s' = { s with res := pre ++ (hdr k ++ (body ++ ds)), charNr := n0 + t.length }) ∨
    (¬ stop c ∧ r = (if close then .ret false else .brk c) ∧ ∃ p, NumEnd cfg (n0 + t.length) p ∧
      s' = { s with res := pre ++ (if close then encHead k (body ++ ds) else (hdr k ++ (body ++ ds))), charNr := p }) := by
  obtain ⟨h1, hf⟩ := DigitRun.facts ht
  obtain ⟨run, h2, h3, h4⟩ := h
  have hstop : Stops DigitUs (c :: rest) := by
    intro d r hh
    injection hh with hh _
    subst hh
    simp [DigitUs, hc.1, hc.2]
  have hd := drop_add hq
  have hle : run.length ≤ t.length := run_le (P := DigitUs) h2 hstop (h3.symm.trans hq)
  rcases h4 with ⟨hn, _⟩ | ⟨d, hd1, hd2, hd3, h4⟩
  · exfalso
    have := query_none hn
    have := query_lt (get_of_drop hd)
    omega
  · have heq : run = t := by
      refine (run_unique (P := DigitUs) h2 h1 ?_ hstop (h3.symm.trans hq)).1
      intro e r he
      have := get_of_drop he
      rw [hd1] at this
      injection this with this
      subst this
      simp [DigitUs, hd2, hd3]
    subst heq
    rw [get_of_drop hd] at hd1
    injection hd1 with hd1
    subst hd1
    rw [hf] at h4
    rcases h4 with ⟨a, rfl, b⟩ | ⟨a, b, e, f⟩ | ⟨a, b, _⟩
    · exact Or.inl ⟨a, rfl, b⟩
    · exact Or.inr ⟨a, e, f⟩
    · exfalso
      rcases hs with hs | ⟨hs, e1, e2, e3⟩
      · exact a hs
      · rcases b with b | b | b | b
        · exact b hs
        · exact e1 b
        · exact e2 b
        · exact e3 b

theorem parseExponent_exact {cfg pre k s c t ts} {body sgn run ds : Bytes} {neg : Bool} {rest : Bytes} (hc : c = c%'e' ∨ c = c%'E')
    (hq : cfg.query.drop s.charNr = c :: (sgn ++ (run ++ rest))) (hsg : SignSpell neg sgn) (hrun : DigitRun run ds)
    (hr : s.res = pre ++ (hdr k ++ body)) (hsep : ∀ c r, rest = c :: r → NumSep c)
    (hrem : Rem cfg (s.charNr + (1 + (sgn.length + run.length))) (t :: ts)) :
    wp True (parseExponent (pre.length + 7) (pre.length + 2) c) cfg s (fun crit s' => crit = false ∧ ∃ p,
      s' = { s with res := pre ++ encHead c%'f' (body ++ c%'E' :: ((if neg then [c%'-'] else []) ++ ds)), charNr := p } ∧
      Rem cfg p (t :: ts)) := by
  have hq1 := drop_succ_of hq
  obtain ⟨d, rest', hrest⟩ : ∃ d r, rest = d :: r := by
    obtain ⟨d, r, h⟩ := hrem.ne
    have := drop_add (drop_add hq1)
    rw [show s.charNr + 1 + sgn.length + run.length = s.charNr + (1 + (sgn.length + run.length)) by omega, h] at this
    exact ⟨d, r, this.symm⟩
  subst hrest
  obtain ⟨f1, f2, f3, f4, f5, f6⟩ := (hsep _ _ rfl).facts
  have hE : (c == c%'e' || c == c%'E') = true := by rcases hc with rfl | rfl <;> decide
  unfold parseExponent
  rw [if_pos hE, wp_bind, wp_setRes, if_pos (by rw [hr]; simp [hdr]), wp_bind, wp_emit, wp_bind, wp_incPos, wp_bind, wp_getPos, wp_bind,
    wp_checkC]
  simp only
  rw [hr, set_kind]
  -- the digit loop
  have go : ∀ (s1 : PS) (body' : Bytes) (c : Byte), cfg.query[s1.charNr]? = some c → s1.res = pre ++ (hdr c%'f' ++ body') →
      cfg.query.drop s1.charNr = run ++ d :: rest' → Rem cfg (s1.charNr + run.length) (t :: ts) →
      wp True (do
        match ← expLoop (← loopFuel) c with
        | .ret crit => return crit
        | .brk _ =>
          closeLen (pre.length + 7)
          return false) cfg s1 (fun crit s' => crit = false ∧ ∃ p,
            s' = { s1 with res := pre ++ encHead c%'f' (body' ++ ds), charNr := p } ∧ Rem cfg p (t :: ts)) := by
    intro s1 body' c hc hres hqq hrm
    rw [wp_bind, wp_loopFuel, wp_bind]
    refine wp_mono (expLoop_wp _ s1 c body' (by omega) hc hres) ?_
    intro r s' h
    rcases h.exact hrun hqq ⟨f2, f3⟩ (Or.inr ⟨f1, f4, f5, f6⟩) with ⟨h1, _⟩ | ⟨_, h2, p, hp, rfl⟩
    · exact h1.elim
    · simp only [Bool.false_eq_true, if_false] at h2
      subst h2
      dsimp only
      rw [wp_bind]
      refine closeLen_wp (pre := pre) (k := c%'f') (body := body' ++ ds) (by simp) rfl ?_
      rw [wp_pure]
      exact ⟨rfl, p, rfl, numEnd_rem hp hrm⟩
  cases hsg with
  | none =>
    simp only [List.nil_append] at hq1
    obtain ⟨c1, r1, h1⟩ : ∃ c r, cfg.query.drop (s.charNr + 1) = c :: r := by
      rw [hq1]; cases run <;> exact ⟨_, _, rfl⟩
    rw [get_of_drop h1]
    dsimp only
    have hns : ¬ (c1 == c%'+' || c1 == c%'-') = true := by
      have hc1 : NumSep c1 ∨ DigitUs c1 := by
        cases run with
        | nil => rw [hq1] at h1; injection h1 with h1 _; subst h1; exact Or.inl (hsep _ _ rfl)
        | cons x run =>
          rw [hq1] at h1
          injection h1 with h1 _
          subst h1
          exact Or.inr ((DigitRun.facts hrun).1 _ (by simp))
      simp only [Bool.or_eq_true, beq_iff_eq]
      rintro (rfl | rfl)
      · revert hc1; unfold NumSep Blank DigitUs; decide
      · revert hc1; unfold NumSep Blank DigitUs; decide
    rw [if_neg hns]
    refine wp_mono (go { s with res := pre ++ (hdr c%'f' ++ body) ++ [c%'E'], charNr := s.charNr + 1 } (body ++ [c%'E']) c1 (get_of_drop h1) (by simp) hq1
      (by have := hrem; simp only [List.length_nil, Nat.zero_add] at this; rw [← Nat.add_assoc] at this; exact this)) ?_
    rintro crit s' ⟨rfl, p, rfl, hp⟩
    exact ⟨rfl, p, by simp, hp⟩
  | plus =>
    have h1 : cfg.query.drop (s.charNr + 1) = c%'+' :: (run ++ d :: rest') := hq1
    have hq2 := drop_succ_of h1
    rw [get_of_drop h1]
    dsimp only
    rw [if_pos (by decide), if_neg (by decide)]
    obtain ⟨c1, r1, h2⟩ : ∃ c r, cfg.query.drop (s.charNr + 1 + 1) = c :: r := by
      rw [hq2]; cases run <;> exact ⟨_, _, rfl⟩
    wps
    rw [get_of_drop h2]
    dsimp only
    have := go { s with res := pre ++ (hdr c%'f' ++ body) ++ [c%'E'], charNr := s.charNr + 1 + 1 } (body ++ [c%'E']) c1 (get_of_drop h2) (by simp) hq2
      (by have := hrem; simp only [List.length_cons, List.length_nil] at this; rw [show s.charNr + 1 + 1 + run.length = s.charNr + (1 + (0 + 1 + run.length)) by omega]; exact this)
    refine wp_mono this ?_
    rintro crit s'' ⟨rfl, p, rfl, hp⟩
    exact ⟨rfl, p, by simp, hp⟩
  | neg =>
    have h1 : cfg.query.drop (s.charNr + 1) = c%'-' :: (run ++ d :: rest') := hq1
    have hq2 := drop_succ_of h1
    rw [get_of_drop h1]
    dsimp only
    rw [if_pos (by decide), if_pos (by decide)]
    obtain ⟨c1, r1, h2⟩ : ∃ c r, cfg.query.drop (s.charNr + 1 + 1) = c :: r := by
      rw [hq2]; cases run <;> exact ⟨_, _, rfl⟩
    wps
    rw [get_of_drop h2]
    dsimp only
    have := go { s with res := pre ++ (hdr c%'f' ++ body) ++ [c%'E'] ++ [c%'-'], charNr := s.charNr + 1 + 1 } (body ++ [c%'E', c%'-']) c1 (get_of_drop h2) (by simp) hq2
      (by have := hrem; simp only [List.length_cons, List.length_nil] at this; rw [show s.charNr + 1 + 1 + run.length = s.charNr + (1 + (0 + 1 + run.length)) by omega]; exact this)
    refine wp_mono this ?_
    rintro crit s'' ⟨rfl, p, rfl, hp⟩
    exact ⟨rfl, p, by simp, hp⟩

/-- After the sign. -/
theorem parseNumberTail_exact {cfg pre s c t ts} {n : Num} {sgn i f e rest : Bytes} (hc : cfg.query[s.charNr]? = some c)
    (hi : DigitRun i n.int)
    (hf : n.frac = none ∧ f = [] ∨ ∃ ds t, n.frac = some ds ∧ f = c%'.' :: t ∧ DigitRun t ds)
    (he : n.exp = none ∧ e = [] ∨ ∃ neg ds l s t, n.exp = some (neg, ds) ∧ (l = c%'e' ∨ l = c%'E') ∧ SignSpell neg s ∧
        DigitRun t ds ∧ e = l :: (s ++ t))
    (hq : cfg.query.drop s.charNr = i ++ (f ++ (e ++ rest))) (hsep : ∀ c r, rest = c :: r → NumSep c)
    (hr : s.res = pre ++ (hdr c%'i' ++ sgn))
    (hrem : Rem cfg (s.charNr + (i.length + (f.length + e.length))) (t :: ts)) :
    wp True (parseNumberTail (pre.length + 7) (pre.length + 2) c) cfg s (fun crit s' => crit = false ∧ ∃ p,
      s' = { s with res := pre ++ encHead (if n.isInt then c%'i' else c%'f') (sgn ++ n.int ++
        (match n.frac with | none => [] | some f => c%'.' :: f) ++
        (match n.exp with | none => [] | some (neg, e) => c%'E' :: ((if neg then [c%'-'] else []) ++ e))), charNr := p } ∧
      Rem cfg p (t :: ts)) := by
  have hq1 := drop_add hq
  have hq2 := drop_add hq1
  have hq3 := drop_add hq2
  have e3 : s.charNr + i.length + f.length + e.length = s.charNr + (i.length + (f.length + e.length)) := by omega
  obtain ⟨d, rest', hrest⟩ : ∃ d r, rest = d :: r := by
    obtain ⟨d, r, h⟩ := hrem.ne
    rw [e3, h] at hq3
    exact ⟨d, r, hq3.symm⟩
  subst hrest
  obtain ⟨f1, f2, f3, f4, f5, f6⟩ := (hsep _ _ rfl).facts
  unfold parseNumberTail
  rw [wp_bind, wp_loopFuel, wp_bind]
  refine wp_mono (intLoop_wp (pre := pre) (k := c%'i') _ s c sgn (by omega) hc hr) ?_
  intro r s' h
  have eE : ∀ l : Byte, (l = c%'e' ∨ l = c%'E') → isDigit l = false ∧ l ≠ c%'_' := by
    rintro l (rfl | rfl) <;> decide
  rcases hf with ⟨hn1, rfl⟩ | ⟨fd, ft, hn1, rfl, hft⟩
  · rcases he with ⟨hn2, rfl⟩ | ⟨neg, ed, l, es, et, hn2, hl, hes, het, rfl⟩
    · -- integer
      rcases h.exact hi hq ⟨f2, f3⟩ (Or.inr ⟨f1, f4, f5, f6⟩) with ⟨h1 | h1 | h1, _⟩ | ⟨_, h2, p, hp, rfl⟩
      · exact (f4 h1).elim
      · exact (f5 h1).elim
      · exact (f6 h1).elim
      · simp only [if_true] at h2
        subst h2
        dsimp only
        rw [wp_pure]
        exact ⟨rfl, p, by simp [Num.isInt, hn1, hn2], numEnd_rem hp (by simpa using hrem)⟩
    · rcases h.exact hi hq (eE l hl) (Or.inl (Or.inr hl)) with ⟨_, rfl, rfl⟩ | ⟨h1, _⟩
      · dsimp only
        rw [if_neg (by rcases hl with rfl | rfl <;> decide)]
        refine wp_mono (parseExponent_exact (pre := pre) (k := c%'i') (body := sgn ++ n.int) (t := t) (ts := ts) hl (by simpa using hq1) hes het rfl hsep
          (by simpa [Nat.add_assoc, Nat.add_comm, Nat.add_left_comm] using hrem)) ?_
        rintro crit s' ⟨rfl, p, rfl, hp⟩
        exact ⟨rfl, p, by simp [Num.isInt, hn1, hn2], hp⟩
      · exact (h1 (Or.inr hl)).elim
  · rcases h.exact hi hq (c := c%'.') (by decide) (Or.inl (Or.inl rfl)) with ⟨_, rfl, rfl⟩ | ⟨h1, _⟩
    · dsimp only
      rw [if_pos (by decide), wp_bind, wp_setRes, if_pos (by simp [hdr])]
      dsimp only
      rw [set_kind, wp_bind, wp_emit, wp_bind, wp_loopFuel, wp_bind]
      dsimp only
      have hlt := query_lt (get_of_drop hq1)
      have hqf : cfg.query.drop (s.charNr + i.length + 1) = ft ++ (e ++ d :: rest') := drop_succ_of hq1
      refine wp_mono (fracLoop_wp (pre := pre) (k := c%'f') _ _ (sgn ++ n.int ++ [c%'.']) (by simp; omega) hlt (by simp)) ?_
      intro r s' h
      rcases he with ⟨hn2, rfl⟩ | ⟨neg, ed, l, es, et, hn2, hl, hes, het, rfl⟩
      · rcases h.exact hft hqf ⟨f2, f3⟩ (Or.inr ⟨f1, f4, f5, f6⟩) with ⟨h1 | h1, _⟩ | ⟨_, h2, p, hp, rfl⟩
        · exact (f5 h1).elim
        · exact (f6 h1).elim
        · simp only [if_true] at h2
          subst h2
          dsimp only
          rw [wp_pure]
          exact ⟨rfl, p, by simp [Num.isInt, hn1, hn2], numEnd_rem hp (by simpa [Nat.add_assoc, Nat.add_comm, Nat.add_left_comm] using hrem)⟩
      · rcases h.exact hft hqf (eE l hl) (Or.inl hl) with ⟨_, rfl, rfl⟩ | ⟨h1, _⟩
        · dsimp only
          refine wp_mono (parseExponent_exact (pre := pre) (k := c%'f') (body := sgn ++ n.int ++ [c%'.'] ++ fd) (t := t) (ts := ts) hl (by simpa using drop_add hqf) hes het rfl hsep
            (by simpa [Nat.add_assoc, Nat.add_comm, Nat.add_left_comm] using hrem)) ?_
          rintro crit s' ⟨rfl, p, rfl, hp⟩
          exact ⟨rfl, p, by simp [Num.isInt, hn1, hn2], hp⟩
        · exact (h1 hl).elim
    · exact (h1 (Or.inl rfl)).elim

/-- A number token. -/
theorem parseNumber_tok {cfg s n t ts} (h : AtTok cfg s.charNr (.num n) (t :: ts)) :
    wp True parseNumberInputValue cfg s (fun crit s' => crit = false ∧ ∃ p,
      s' = { s with res := s.res ++ encHead (if n.isInt then c%'i' else c%'f') n.text, charNr := p } ∧ Rem cfg p (t :: ts)) := by
  obtain ⟨h, hg⟩ := h
  generalize ht : cfg.query.drop s.charNr = text at h
  cases h with
  | cons hs hsep hl =>
  rename_i sp rest
  cases hs with
  | num hs =>
  cases hs with
  | mk hsg hi hf he hfst =>
  rename_i sgn i f e
  obtain ⟨c0, r0, h0, hc0⟩ := hfst
  have hsep' : ∀ c r, rest = c :: r → NumSep c := hsep
  have hq : cfg.query.drop s.charNr = sgn ++ (i ++ (f ++ (e ++ rest))) := by rw [ht]; simp
  have hrem : Rem cfg (s.charNr + sgn.length + (i.length + (f.length + e.length))) (t :: ts) := by
    have h1 := drop_add (drop_add (drop_add (drop_add hq)))
    rw [show s.charNr + sgn.length + i.length + f.length + e.length = s.charNr + sgn.length + (i.length + (f.length + e.length)) by omega] at h1
    exact ⟨by rw [h1]; exact hl, fun x hx => hg x (List.mem_cons_of_mem _ hx)⟩
  have hq1 := drop_add hq
  have hrest : ∃ d r, rest = d :: r := by
    obtain ⟨d, r, h⟩ := hrem.ne
    have h1 := drop_add (drop_add (drop_add hq1))
    rw [show s.charNr + sgn.length + i.length + f.length + e.length = s.charNr + sgn.length + (i.length + (f.length + e.length)) by omega, h] at h1
    exact ⟨d, r, h1.symm⟩
  have hget : cfg.query[s.charNr]? = some c0 := by
    refine get_of_drop (t := r0 ++ rest) ?_
    rw [ht, h0]; rfl
  unfold parseNumberInputValue instructionNewValueInt
  rw [wp_bind, wp_emit, wp_bind, wp_resLen, wp_bind, wp_resLen, wp_bind]
  have hlen : (s.res ++ [0, 118, 105, 0, 0, 0, 0] : Bytes).length = s.res.length + 7 := by simp
  have hlen2 : s.res.length + 7 - 5 = s.res.length + 2 := by omega
  dsimp only
  rw [hlen, hlen2]
  refine currentC_wp hget ?_
  have hsg2 := hsg
  generalize hneg : n.neg = neg at hsg
  cases hsg with
  | neg =>
    have : c0 = c%'-' := by injection h0 with h0 _; exact h0.symm
    subst this
    rw [if_pos (by decide), wp_bind, wp_incPos, wp_bind, wp_emit, wp_bind, wp_getPos, wp_bind, wp_checkC]
    obtain ⟨c1, r1, h1⟩ : ∃ c r, cfg.query.drop (s.charNr + 1) = c :: r := by
      have hq1' : cfg.query.drop (s.charNr + 1) = i ++ (f ++ (e ++ rest)) := hq1
      rw [hq1']
      obtain ⟨d, r, rfl⟩ := hrest
      cases i with
      | cons => exact ⟨_, _, rfl⟩
      | nil =>
      cases f with
      | cons => exact ⟨_, _, rfl⟩
      | nil => cases e <;> exact ⟨_, _, rfl⟩
    dsimp only
    rw [get_of_drop h1]
    refine wp_mono (parseNumberTail_exact (pre := s.res) (n := n) (sgn := [c%'-']) (t := t) (ts := ts) (get_of_drop h1) hi hf he hq1 hsep'
      (by simp [hdr]) hrem) ?_
    rintro crit s' ⟨rfl, p, rfl, hp⟩
    refine ⟨rfl, p, ?_, hp⟩
    simp [Num.text, hneg]
    rfl
  | plus =>
    have : c0 = c%'+' := by injection h0 with h0 _; exact h0.symm
    subst this
    rw [if_neg (by decide), if_pos (by decide), wp_bind, wp_incPos, wp_bind, wp_getPos, wp_bind, wp_checkC]
    obtain ⟨c1, r1, h1⟩ : ∃ c r, cfg.query.drop (s.charNr + 1) = c :: r := by
      have hq1' : cfg.query.drop (s.charNr + 1) = i ++ (f ++ (e ++ rest)) := hq1
      rw [hq1']
      obtain ⟨d, r, rfl⟩ := hrest
      cases i with
      | cons => exact ⟨_, _, rfl⟩
      | nil =>
      cases f with
      | cons => exact ⟨_, _, rfl⟩
      | nil => cases e <;> exact ⟨_, _, rfl⟩
    dsimp only
    rw [get_of_drop h1]
    refine wp_mono (parseNumberTail_exact (pre := s.res) (n := n) (sgn := []) (t := t) (ts := ts) (get_of_drop h1) hi hf he hq1 hsep'
      (by simp [hdr]) hrem) ?_
    rintro crit s' ⟨rfl, p, rfl, hp⟩
    refine ⟨rfl, p, ?_, hp⟩
    simp [Num.text, hneg]
    rfl
  | none =>
    have hne : ∀ k : Byte, (k = c%'-' ∨ k = c%'+') → c0 ≠ k := by
      intro k hk hc
      subst hc
      have : DigitUs c0 ∨ c0 = c%'.' ∨ c0 = c%'e' ∨ c0 = c%'E' := by
        cases i with
        | cons x i =>
          injection h0 with h0 _
          subst h0
          exact Or.inl ((DigitRun.facts hi).1 _ (by simp))
        | nil =>
          rcases hf with ⟨_, rfl⟩ | ⟨_, _, _, rfl, _⟩
          · rcases he with ⟨_, rfl⟩ | ⟨_, _, l, _, _, _, hl, _, _, rfl⟩
            · simp at h0
            · injection h0 with h0 _
              subst h0
              exact Or.inr (Or.inr hl)
          · injection h0 with h0 _
            subst h0
            exact Or.inr (Or.inl rfl)
      revert this
      unfold DigitUs
      rcases hk with rfl | rfl <;> decide
    rw [if_neg (by simpa using hne _ (Or.inl rfl)), if_neg (by simpa using hne _ (Or.inr rfl))]
    refine wp_mono (parseNumberTail_exact (pre := s.res) (n := n) (sgn := []) (t := t) (ts := ts) hget hi hf he hq1 hsep'
      (by simp [hdr]) hrem) ?_
    rintro crit s' ⟨rfl, p, rfl, hp⟩
    refine ⟨rfl, p, ?_, hp⟩
    simp [Num.text, hneg]
    rfl

end Parser
end Yarql
