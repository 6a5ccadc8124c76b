import Verif.Proofs.Bytes
import Verif.Proofs.TextSize

/-! # Compiled queries can be read back: the encoding of documents is injective -/

namespace Yarql
namespace Doc
open Grammar

/-- nothing, or a new instruction -/
def Term (r : Bytes) : Prop := r = [] ∨ ∃ t, r = 0 :: t

theorem Term.app {a b : Bytes} (ha : Term a) (hb : Term b) : Term (a ++ b) := by
  rcases ha with rfl | ⟨t, rfl⟩
  · exact hb
  · exact Or.inr ⟨_, rfl⟩

theorem term_cons (t : Bytes) : Term (0 :: t) := Or.inr ⟨t, rfl⟩

theorem nameChar_ne_zero {c : Byte} (h : NameChar c) : c ≠ 0 := by
  rintro rfl
  revert h
  unfold NameChar NameStart
  decide

theorem name_no_nul {n : Bytes} (h : IsName n) : ∀ x ∈ n, x ≠ 0 := by
  obtain ⟨-, c, cs, rfl, hc, hcs⟩ := h
  intro x hx
  rcases List.mem_cons.1 hx with rfl | hx
  · exact nameChar_ne_zero (Or.inl hc)
  · exact nameChar_ne_zero (hcs x hx)

/-- names end at the next instruction -/
theorem split_name {n n' r r' : Bytes} (hn : ∀ x ∈ n, x ≠ 0) (hn' : ∀ x ∈ n', x ≠ 0) (hr : Term r) (hr' : Term r')
    (h : n ++ r = n' ++ r') : n = n' ∧ r = r' := by
  induction n generalizing n' with
  | nil =>
    cases n' with
    | nil => exact ⟨rfl, h⟩
    | cons a as =>
      exfalso
      have ha := hn' a (List.mem_cons_self ..)
      rcases hr with rfl | ⟨t, rfl⟩
      · cases h
      · injection h with h _
        exact ha h.symm
  | cons a as ih =>
    cases n' with
    | nil =>
      exfalso
      have ha := hn a (List.mem_cons_self ..)
      rcases hr' with rfl | ⟨t, rfl⟩
      · cases h
      · injection h with h _
        exact ha h
    | cons b bs =>
      injection h with h1 h2
      obtain ⟨rfl, rfl⟩ := ih (fun x hx => hn x (List.mem_cons_of_mem _ hx)) (fun x hx => hn' x (List.mem_cons_of_mem _ hx)) h2
      exact ⟨by rw [h1], rfl⟩

theorem le32_inj {a b : UInt32} (h : le32 a = le32 b) : a = b := by
  have h1 := rd32_le32 a
  have h2 := rd32_le32 b
  rw [le32_eq, le32_eq] at h
  injection h with e0 h
  injection h with e1 h
  injection h with e2 h
  injection h with e3 _
  rw [← h1, ← h2, e0, e1, e2, e3]

theorem len32_inj {a b : Nat} (ha : a < 2 ^ 32) (hb : b < 2 ^ 32) (h : len32 a = len32 b) : a = b := by
  have := congrArg UInt32.toNat (le32_inj h)
  rwa [UInt32.toNat_ofNat_of_lt' ha, UInt32.toNat_ofNat_of_lt' hb] at this

theorem split_len {a b r r' : Bytes} {k k' : Nat} (ha : a.length + k < 2 ^ 32) (hb : b.length + k' < 2 ^ 32) (hk : k = k')
    (h : len32 (a.length + k) ++ (a ++ r) = len32 (b.length + k') ++ (b ++ r')) : a = b ∧ r = r' := by
  have h1 := List.append_inj h (by rfl)
  have := len32_inj ha hb h1.1
  exact List.append_inj h1.2 (by omega)

theorem split_head {k k' : Byte} {a b r r' : Bytes} (ha : (encHead k a).length < 2 ^ 32) (hb : (encHead k' b).length < 2 ^ 32)
    (h : encHead k a ++ r = encHead k' b ++ r') : k = k' ∧ a = b ∧ r = r' := by
  rw [encHead_length] at ha hb
  unfold encHead at h
  simp only [List.cons_append, List.nil_append, List.append_assoc] at h
  injection h with _ h
  injection h with _ h
  injection h with h1 h
  exact ⟨h1, split_len (k := 0) (k' := 0) (by omega) (by omega) rfl h⟩

theorem value_head (v : Value) : ∃ k b, encValue v = encHead k b := by
  cases v <;> exact ⟨_, _, rfl⟩

theorem head_cons (k : Byte) (b : Bytes) : ∃ t, encHead k b = 0 :: c%'v' :: t := ⟨_, rfl⟩

theorem value_cons (v : Value) : ∃ t, encValue v = 0 :: c%'v' :: t := by
  obtain ⟨k, b, h⟩ := value_head v
  rw [h]
  exact head_cons k b

theorem value_len {v : Value} {k : Byte} {b : Bytes} (h : encValue v = encHead k b) (hl : (encValue v).length < 2 ^ 32) :
    (encHead k b).length < 2 ^ 32 := by rwa [← h]

mutual
theorem value_inj : ∀ (v v' : Value) (r r' : Bytes), v.WF → v'.WF → (encValue v).length < 2 ^ 32 → (encValue v').length < 2 ^ 32 →
    encValue v ++ r = encValue v' ++ r' → v = v' ∧ r = r' := by
  intro v v' r r' hw hw' hl hl' h
  cases v <;> cases v' <;> simp only [encValue] at h hl hl' <;> obtain ⟨hk, hb, hr⟩ := split_head hl hl' h <;>
    first
    | (exact absurd hk (by decide))
    | skip
  case var => exact ⟨by rw [hb], hr⟩
  case int => exact ⟨by rw [hb], hr⟩
  case float => exact ⟨by rw [hb], hr⟩
  case str => exact ⟨by rw [hb], hr⟩
  case bool a b =>
    refine ⟨?_, hr⟩
    cases a <;> cases b <;> first | rfl | exact absurd hb (by decide)
  case null => exact ⟨rfl, hr⟩
  case enum => exact ⟨by rw [hb], hr⟩
  case list a b =>
    rw [encHead_length, List.length_append] at hl hl'
    have := values_inj a b [] [] hw hw' (by omega) (by omega) (by simpa using hb)
    exact ⟨by rw [this.1], hr⟩
  case obj a b =>
    rw [encHead_length, List.length_append] at hl hl'
    have := fields_inj a b [] [] hw hw' (by omega) (by omega) (by simpa using hb)
    exact ⟨by rw [this.1], hr⟩
theorem values_inj : ∀ (vs vs' : List Value) (r r' : Bytes), valuesWF vs → valuesWF vs' → (encValues vs).length < 2 ^ 32 →
    (encValues vs').length < 2 ^ 32 → encValues vs ++ (endI ++ r) = encValues vs' ++ (endI ++ r') → vs = vs' ∧ r = r' := by
  intro vs vs' r r' hw hw' hl hl' h
  cases vs with
  | nil =>
    cases vs' with
    | nil => exact ⟨rfl, List.append_cancel_left h⟩
    | cons b bs =>
      obtain ⟨t, ht⟩ := value_cons b
      simp [encValues, ht, endI] at h
  | cons a as =>
    cases vs' with
    | nil =>
      obtain ⟨t, ht⟩ := value_cons a
      simp [encValues, ht, endI] at h
    | cons b bs =>
      simp only [encValues, List.append_assoc, List.length_append] at h hl hl'
      obtain ⟨rfl, h1⟩ := value_inj a b _ _ hw.1 hw'.1 (by omega) (by omega) h
      obtain ⟨rfl, h2⟩ := values_inj as bs _ _ hw.2 hw'.2 (by omega) (by omega) h1
      exact ⟨rfl, h2⟩
theorem fields_inj : ∀ (fs fs' : List (Bytes × Value)) (r r' : Bytes), fieldsWF fs → fieldsWF fs' → (encFields fs).length < 2 ^ 32 →
    (encFields fs').length < 2 ^ 32 → encFields fs ++ (endI ++ r) = encFields fs' ++ (endI ++ r') → fs = fs' ∧ r = r' := by
  intro fs fs' r r' hw hw' hl hl' h
  cases fs with
  | nil =>
    cases fs' with
    | nil => exact ⟨rfl, List.append_cancel_left h⟩
    | cons b bs => obtain ⟨n, v⟩ := b; simp [encFields, endI] at h
  | cons a as =>
    obtain ⟨n, v⟩ := a
    cases fs' with
    | nil => simp [encFields, endI] at h
    | cons b bs =>
      obtain ⟨n', v'⟩ := b
      simp only [encFields, List.append_assoc, List.length_append, List.length_cons, List.cons_append, List.nil_append] at h hl hl'
      injection h with _ h
      injection h with _ h
      obtain ⟨t, ht⟩ := value_cons v
      obtain ⟨t', ht'⟩ := value_cons v'
      obtain ⟨rfl, h0⟩ := split_name (name_no_nul hw.1) (name_no_nul hw'.1) (by rw [ht]; exact term_cons _) (by rw [ht']; exact term_cons _) h
      obtain ⟨rfl, h1⟩ := value_inj v v' _ _ hw.2.1 hw'.2.1 (by omega) (by omega) h0
      obtain ⟨rfl, h2⟩ := fields_inj as bs _ _ hw.2.2 hw'.2.2 (by omega) (by omega) h1
      exact ⟨rfl, h2⟩
end

/-- what follows is no argument object -/
def NoArgs (r : Bytes) : Prop := Term r ∧ ∀ t, r ≠ 0 :: c%'v' :: t

theorem args_term (a : Option (List (Bytes × Value))) {r : Bytes} (hr : Term r) : Term (encArgs a ++ r) := by
  cases a with
  | none => exact hr
  | some fs =>
    obtain ⟨t, ht⟩ := value_cons (.obj fs)
    show Term (encValue (.obj fs) ++ r)
    rw [ht]
    exact term_cons _

theorem args_inj (a a' : Option (List (Bytes × Value))) (r r' : Bytes) (hw : argsWF a) (hw' : argsWF a') (hl : (encArgs a).length < 2 ^ 32)
    (hl' : (encArgs a').length < 2 ^ 32) (hr : NoArgs r) (hr' : NoArgs r') (h : encArgs a ++ r = encArgs a' ++ r') : a = a' ∧ r = r' := by
  cases a with
  | none =>
    cases a' with
    | none => exact ⟨rfl, h⟩
    | some fs =>
      obtain ⟨t, ht⟩ := value_cons (.obj fs)
      exfalso
      apply hr.2 (t ++ r')
      rw [show r = encArgs none ++ r from rfl, h, show encArgs (some fs) = encValue (.obj fs) from rfl, ht]
      rfl
  | some fs =>
    cases a' with
    | none =>
      obtain ⟨t, ht⟩ := value_cons (.obj fs)
      exfalso
      apply hr'.2 (t ++ r)
      rw [show r' = encArgs none ++ r' from rfl, ← h, show encArgs (some fs) = encValue (.obj fs) from rfl, ht]
      rfl
    | some fs' =>
      obtain ⟨h1, h2⟩ := value_inj (.obj fs) (.obj fs') r r' hw hw' hl hl' h
      cases h1
      exact ⟨rfl, h2⟩

theorem dirs_cases (ds : List Directive) : encDirectives ds = [] ∨ ∃ t, encDirectives ds = 0 :: c%'d' :: t := by
  cases ds with
  | nil => exact Or.inl rfl
  | cons d ds => exact Or.inr ⟨_, rfl⟩

/-- a list of directives, its length known, followed by something that is no argument object unless the flag of the last one says so -/
theorem dirs_inj : ∀ (ds ds' : List Directive) (r r' : Bytes), (∀ d ∈ ds, d.WF) → (∀ d ∈ ds', d.WF) → ds.length = ds'.length →
    (encDirectives ds).length < 2 ^ 32 → (encDirectives ds').length < 2 ^ 32 → Term r → Term r' →
    encDirectives ds ++ r = encDirectives ds' ++ r' → ds = ds' ∧ r = r' := by
  intro ds
  induction ds with
  | nil =>
    intro ds' r r' _ _ hl _ _ _ _ h
    cases ds' with
    | nil => exact ⟨rfl, h⟩
    | cons => cases hl
  | cons d ds ih =>
    intro ds' r r' hw hw' hl hz hz' hr hr' h
    cases ds' with
    | nil => cases hl
    | cons d' ds' =>
      simp only [encDirectives, encDirective, List.append_assoc, List.cons_append, List.nil_append, List.length_append, List.length_cons] at h hz hz'
      injection h with _ h
      injection h with _ h
      injection h with hf h
      have tl : ∀ (e : List Directive) {r}, Term r → Term (encDirectives e ++ r) := by
        intro e r hr
        rcases dirs_cases e with he | ⟨t, he⟩
        · rw [he]; exact hr
        · rw [he]; exact term_cons _
      have wd := hw d (List.mem_cons_self ..)
      have wd' := hw' d' (List.mem_cons_self ..)
      obtain ⟨h1, h2⟩ := split_name (name_no_nul wd.1) (name_no_nul wd'.1) (args_term _ (tl ds hr)) (args_term _ (tl ds' hr')) h
      obtain ⟨n, a⟩ := d
      obtain ⟨n', a'⟩ := d'
      have h3 : a = a' ∧ encDirectives ds ++ r = encDirectives ds' ++ r' := by
        cases a with
        | none =>
          cases a' with
          | none => exact ⟨rfl, h2⟩
          | some _ => exact absurd hf (by simp)
        | some fs =>
          cases a' with
          | none => exact absurd hf (by simp)
          | some fs' =>
            obtain ⟨e1, e2⟩ := value_inj (.obj fs) (.obj fs') _ _ wd.2 wd'.2 (show (encArgs (some fs)).length < _ by dsimp only at hz; omega)
              (show (encArgs (some fs')).length < _ by dsimp only at hz'; omega) h2
            cases e1
            exact ⟨rfl, e2⟩
      obtain ⟨h5, h6⟩ := ih ds' r r' (fun x hx => hw x (List.mem_cons_of_mem _ hx)) (fun x hx => hw' x (List.mem_cons_of_mem _ hx))
        (Nat.succ.inj hl) (by omega) (by omega) hr hr' h3.2
      dsimp only at h1
      rw [h1, h3.1, h5]
      exact ⟨rfl, h6⟩

theorem ofNat_inj {a b : Nat} (ha : a ≤ 255) (hb : b ≤ 255) (h : UInt8.ofNat a = UInt8.ofNat b) : a = b := by
  have := congrArg UInt8.toNat h
  simp only [UInt8.toNat_ofNat'] at this
  omega

/-- selections, then the end -/
def selsEnd (ss : List Sel) (r : Bytes) : Bytes := encSels ss ++ (endI ++ r)

theorem sel_cons (s : Sel) : ∃ t, encSel s = 0 :: c%'f' :: t ∨ encSel s = 0 :: c%'s' :: t := by
  cases s with
  | field => exact ⟨_, Or.inl rfl⟩
  | spread => exact ⟨_, Or.inr rfl⟩
  | inline => exact ⟨_, Or.inr rfl⟩

theorem sels_noArgs (ss : List Sel) (r : Bytes) : NoArgs (encSels ss ++ (endI ++ r)) := by
  cases ss with
  | nil => exact ⟨term_cons _, fun t h => by simp [encSels, endI] at h⟩
  | cons s ss =>
    obtain ⟨t, ht | ht⟩ := sel_cons s <;> simp only [encSels, ht, List.cons_append] <;>
      exact ⟨term_cons _, fun t h => by simp at h⟩

theorem sels_ne_end (s : Sel) (ss : List Sel) (r r' : Bytes) : encSels (s :: ss) ++ r ≠ endI ++ r' := by
  intro h
  obtain ⟨t, ht | ht⟩ := sel_cons s <;> simp [encSels, ht, endI] at h

mutual
theorem sel_inj : ∀ (s s' : Sel) (r r' : Bytes), s.WF → s'.WF → (encSel s).length < 2 ^ 32 → (encSel s').length < 2 ^ 32 →
    encSel s ++ r = encSel s' ++ r' → s = s' ∧ r = r'
  | .field key name dirs args sels, .field key' name' dirs' args' sels', r, r', hw, hw', hl, hl', h => by
    simp only [encSel, List.append_assoc, List.length_append, List.cons_append, List.nil_append, len32_length, le32_length', List.length_cons,
      List.length_nil] at h hl hl'
    injection h with _ h
    injection h with _ h
    injection h with hd h
    have hlen := len32_inj (by omega) (by omega) (List.append_inj h (by rfl)).1
    have h := (List.append_inj (List.append_inj h (by rfl)).2 (by rfl)).2
    simp only [encFieldHead, List.append_assoc, List.cons_append, List.nil_append, List.length_append, List.length_cons] at h hl hl'
    injection h with hk h
    obtain ⟨⟨k1, -⟩, hn, ⟨hdl, hdw⟩, haw, hsw⟩ := id hw
    obtain ⟨⟨k1', -⟩, hn', ⟨hdl', hdw'⟩, haw', hsw'⟩ := id hw'
    obtain ⟨hkey, h⟩ := List.append_inj h (ofNat_inj (by omega) (by omega) hk)
    injection h with hnl h
    have nl : ∀ (name : Option Bytes), (∀ n, name = some n → IsName n) → (name.getD []).length ≤ 254 ∧ (name = none ↔ (name.getD []).length = 0) := by
      intro name hn
      cases name with
      | none => simp
      | some n =>
        have h1 := (hn n rfl).1
        have h2 := name_pos (hn n rfl)
        refine ⟨h1, ?_⟩
        simp only [Option.getD_some]
        constructor
        · intro h; cases h
        · omega
    have n1 := nl name hn
    have n2 := nl name' hn'
    have hnl := ofNat_inj (by omega) (by omega) hnl
    obtain ⟨hname, h⟩ := List.append_inj h hnl
    have hname : name = name' := by
      cases name with
      | none => exact ((n2.2).2 (by rw [← hnl]; exact (n1.2).1 rfl)).symm
      | some n =>
        cases name' with
        | none => exact (n1.2).2 (by rw [hnl]; exact (n2.2).1 rfl)
        | some n' => rw [show n = n' from hname]
    have hdc := ofNat_inj hdl hdl' hd
    obtain ⟨hdirs, h⟩ := dirs_inj dirs dirs' _ _ hdw hdw' hdc (by omega) (by omega) (args_term _ (sels_noArgs _ _).1) (args_term _ (sels_noArgs _ _).1) h
    obtain ⟨hargs, h⟩ := args_inj args args' _ _ haw haw' (by omega) (by omega) (sels_noArgs _ _) (sels_noArgs _ _) h
    obtain ⟨hsels, h⟩ := sels_inj sels sels' r r' hsw hsw' (by omega) (by omega) h
    rw [hkey, hname, hdirs, hargs, hsels]
    exact ⟨rfl, h⟩
  | .spread name dirs, .spread name' dirs', r, r', hw, hw', hl, hl', h => by
    simp only [encSel, List.append_assoc, List.length_append, List.cons_append, List.nil_append, len32_length, List.length_cons,
      List.length_nil] at h hl hl'
    injection h with _ h
    injection h with _ h
    injection h with _ h
    injection h with hd h
    obtain ⟨hn, hdl, hdw⟩ := id hw
    obtain ⟨hn', hdl', hdw'⟩ := id hw'
    have hb := split_len (a := name ++ encDirectives dirs) (b := name' ++ encDirectives dirs') (k := 0) (k' := 0)
      (by simp only [List.length_append]; omega) (by simp only [List.length_append]; omega) rfl (by simpa using h)
    have te : ∀ ds : List Directive, Term (encDirectives ds) := by
      intro ds
      rcases dirs_cases ds with he | ⟨t, he⟩
      · exact Or.inl he
      · rw [he]; exact term_cons _
    obtain ⟨h1, h2⟩ := split_name (name_no_nul hn) (name_no_nul hn') (te _) (te _) hb.1
    obtain ⟨h3, -⟩ := dirs_inj dirs dirs' [] [] hdw hdw' (ofNat_inj hdl hdl' hd) (by omega) (by omega) (Or.inl rfl) (Or.inl rfl) (by rw [h2])
    rw [h1, h3]
    exact ⟨rfl, hb.2⟩
  | .inline ty dirs sels, .inline ty' dirs' sels', r, r', hw, hw', hl, hl', h => by
    simp only [encSel, List.append_assoc, List.length_append, List.cons_append, List.nil_append, len32_length, List.length_cons,
      List.length_nil] at h hl hl'
    injection h with _ h
    injection h with _ h
    injection h with _ h
    injection h with hd h
    obtain ⟨hn, ⟨hdl, hdw⟩, hsw⟩ := id hw
    obtain ⟨hn', ⟨hdl', hdw'⟩, hsw'⟩ := id hw'
    have h := (List.append_inj h (by rfl)).2
    have te : ∀ (ds : List Directive) {r}, Term r → Term (encDirectives ds ++ r) := by
      intro ds r hr
      rcases dirs_cases ds with he | ⟨t, he⟩
      · rw [he]; exact hr
      · rw [he]; exact term_cons _
    obtain ⟨h1, h⟩ := split_name (name_no_nul hn) (name_no_nul hn') (te _ (sels_noArgs _ _).1) (te _ (sels_noArgs _ _).1) h
    obtain ⟨h3, h⟩ := dirs_inj dirs dirs' _ _ hdw hdw' (ofNat_inj hdl hdl' hd) (by omega) (by omega) (sels_noArgs _ _).1 (sels_noArgs _ _).1 h
    obtain ⟨hsels, h⟩ := sels_inj sels sels' r r' hsw hsw' (by omega) (by omega) h
    rw [h1, h3, hsels]
    exact ⟨rfl, h⟩
  | .field .., .spread .., _, _, _, _, _, _, h => by simp [encSel] at h
  | .field .., .inline .., _, _, _, _, _, _, h => by simp [encSel] at h
  | .spread .., .field .., _, _, _, _, _, _, h => by simp [encSel] at h
  | .inline .., .field .., _, _, _, _, _, _, h => by simp [encSel] at h
  | .spread .., .inline .., _, _, _, _, _, _, h => by simp [encSel] at h
  | .inline .., .spread .., _, _, _, _, _, _, h => by simp [encSel] at h
theorem sels_inj : ∀ (ss ss' : List Sel) (r r' : Bytes), selsWF ss → selsWF ss' → (encSels ss).length < 2 ^ 32 →
    (encSels ss').length < 2 ^ 32 → encSels ss ++ (endI ++ r) = encSels ss' ++ (endI ++ r') → ss = ss' ∧ r = r'
  | [], [], _, _, _, _, _, _, h => ⟨rfl, List.append_cancel_left h⟩
  | [], s :: ss, _, _, _, _, _, _, h => absurd h.symm (sels_ne_end s ss _ _)
  | s :: ss, [], _, _, _, _, _, _, h => absurd h (sels_ne_end s ss _ _)
  | s :: ss, s' :: ss', r, r', hw, hw', hl, hl', h => by
    simp only [encSels, List.append_assoc, List.length_append] at h hl hl'
    obtain ⟨h1, h⟩ := sel_inj s s' _ _ hw.1 hw'.1 (by omega) (by omega) h
    obtain ⟨h2, h⟩ := sels_inj ss ss' _ _ hw.2 hw'.2 (by omega) (by omega) h
    rw [h1, h2]
    exact ⟨rfl, h⟩
end

theorem ty_inj : ∀ (t t' : Ty) (r r' : Bytes), t.WF → t'.WF → encTy t ++ 0 :: r = encTy t' ++ 0 :: r' → t = t' ∧ r = r'
  | .named n b, .named n' b', r, r', hw, hw', h => by
    simp only [encTy, List.cons_append] at h
    injection h with hb h
    obtain ⟨h1, h2⟩ := split_name (name_no_nul hw) (name_no_nul hw') (term_cons _) (term_cons _) h
    injection h2 with _ h2
    refine ⟨?_, h2⟩
    rw [h1]
    cases b <;> cases b' <;> first | rfl | exact absurd hb (by decide)
  | .list t b, .list t' b', r, r', hw, hw', h => by
    simp only [encTy, List.cons_append] at h
    injection h with hb h
    obtain ⟨h1, h2⟩ := ty_inj t t' r r' hw hw' h
    refine ⟨?_, h2⟩
    rw [h1]
    cases b <;> cases b' <;> first | rfl | exact absurd hb (by decide)
  | .named n b, .list t b', _, _, _, _, h => by
    simp only [encTy, List.cons_append] at h
    injection h with hb _
    cases b <;> cases b' <;> exact absurd hb (by decide)
  | .list t b, .named n b', _, _, _, _, h => by
    simp only [encTy, List.cons_append] at h
    injection h with hb _
    cases b <;> cases b' <;> exact absurd hb (by decide)

theorem varDef_inj (v v' : VarDef) (r r' : Bytes) (hw : v.WF) (hw' : v'.WF) (hl : (encVarDef v).length < 2 ^ 32)
    (hl' : (encVarDef v').length < 2 ^ 32) (h : encVarDef v ++ r = encVarDef v' ++ r') : v = v' ∧ r = r' := by
  unfold encVarDef at h hl hl'
  simp only [List.append_assoc, List.length_append, List.cons_append, List.nil_append, len32_length, List.length_cons, List.length_nil] at h hl hl'
  injection h with _ h
  injection h with _ h
  obtain ⟨hb, hr⟩ := split_len (by omega) (by omega) rfl h
  obtain ⟨n, ty, d⟩ := v
  obtain ⟨n', ty', d'⟩ := v'
  simp only [encVarBody, List.append_assoc, List.cons_append, List.nil_append, List.length_append, List.length_cons] at hb hl hl'
  obtain ⟨h1, h2⟩ := split_name (name_no_nul hw.1) (name_no_nul hw'.1) (term_cons _) (term_cons _) hb
  injection h2 with _ h2
  obtain ⟨h3, h4⟩ := ty_inj ty ty' _ _ hw.2.1 hw'.2.1 h2
  have h5 : d = d' := by
    cases d with
    | none =>
      cases d' with
      | none => rfl
      | some x => injection h4 with h4 _; exact absurd h4 (by decide)
    | some x =>
      cases d' with
      | none => injection h4 with h4 _; exact absurd h4 (by decide)
      | some y =>
        injection h4 with _ h4
        simp only [List.length_cons] at hl hl'
        rw [(value_inj x y [] [] (hw.2.2 x rfl) (hw'.2.2 y rfl) (by omega) (by omega) (by rw [h4])).1]
  exact ⟨by rw [show n = n' from h1, h3, h5], hr⟩

theorem varDefs_inj : ∀ (vs vs' : List VarDef) (r r' : Bytes), (∀ v ∈ vs, v.WF) → (∀ v ∈ vs', v.WF) → (encVarDefs vs).length < 2 ^ 32 →
    (encVarDefs vs').length < 2 ^ 32 → encVarDefs vs ++ (endI ++ r) = encVarDefs vs' ++ (endI ++ r') → vs = vs' ∧ r = r'
  | [], [], _, _, _, _, _, _, h => ⟨rfl, List.append_cancel_left h⟩
  | [], v :: vs, _, _, _, _, _, _, h => by simp [encVarDefs, encVarDef, endI] at h
  | v :: vs, [], _, _, _, _, _, _, h => by simp [encVarDefs, encVarDef, endI] at h
  | v :: vs, v' :: vs', r, r', hw, hw', hl, hl', h => by
    simp only [encVarDefs, List.append_assoc, List.length_append] at h hl hl'
    obtain ⟨h1, h⟩ := varDef_inj v v' _ _ (hw _ (List.mem_cons_self ..)) (hw' _ (List.mem_cons_self ..)) (by omega) (by omega) h
    obtain ⟨h2, h⟩ := varDefs_inj vs vs' _ _ (fun x hx => hw x (List.mem_cons_of_mem _ hx)) (fun x hx => hw' x (List.mem_cons_of_mem _ hx))
      (by omega) (by omega) h
    rw [h1, h2]
    exact ⟨rfl, h⟩

theorem op_inj (o o' : Operation) (r r' : Bytes) (hw : o.WF) (hw' : o'.WF) (hl : (encOperation o).length < 2 ^ 32)
    (hl' : (encOperation o').length < 2 ^ 32) (h : encOperation o ++ r = encOperation o' ++ r') : o = o' ∧ r = r' := by
  obtain ⟨k, n, vs, ds, ss⟩ := o
  obtain ⟨k', n', vs', ds', ss'⟩ := o'
  simp only [encOperation, List.append_assoc, List.length_append, List.cons_append, List.nil_append, List.length_cons] at h hl hl'
  injection h with _ h
  injection h with _ h
  injection h with hk h
  injection h with hv h
  injection h with hd h
  have hk : k = k' := by cases k <;> cases k' <;> first | rfl | exact absurd hk (by decide)
  obtain ⟨hn, hvw, ⟨hdl, hdw⟩, hsw⟩ := hw
  obtain ⟨hn', hvw', ⟨hdl', hdw'⟩, hsw'⟩ := hw'
  dsimp only at *
  have nn : ∀ {n : Bytes}, n = [] ∨ IsName n → ∀ x ∈ n, x ≠ 0 := by
    rintro n (rfl | h)
    · intro x hx; cases hx
    · exact name_no_nul h
  have te : ∀ (ds : List Directive) {r}, Term r → Term (encDirectives ds ++ r) := by
    intro ds r hr
    rcases dirs_cases ds with he | ⟨t, he⟩
    · rw [he]; exact hr
    · rw [he]; exact term_cons _
  have tv : ∀ (vs : Option (List VarDef)) {r}, Term r → Term (encVars vs ++ r) := by
    intro vs r hr
    cases vs with
    | none => exact hr
    | some vs => exact term_cons _
  obtain ⟨h1, h⟩ := split_name (nn hn) (nn hn') (tv _ (te _ (sels_noArgs _ _).1)) (tv _ (te _ (sels_noArgs _ _).1)) h
  have hvs : vs = vs' ∧ encDirectives ds ++ (encSels ss ++ (endI ++ r)) = encDirectives ds' ++ (encSels ss' ++ (endI ++ r')) := by
    cases vs with
    | none =>
      cases vs' with
      | none => exact ⟨rfl, h⟩
      | some _ => exact absurd hv (by simp)
    | some a =>
      cases vs' with
      | none => exact absurd hv (by simp)
      | some b =>
        simp only [encVars, List.append_assoc, List.cons_append, List.nil_append, List.length_append, List.length_cons, len32_length] at h hl hl'
        injection h with _ h
        have h := (List.append_inj h (by rfl)).2
        injection h with _ h
        injection h with _ h
        obtain ⟨e1, e2⟩ := varDefs_inj a b _ _ (hvw a rfl) (hvw' b rfl) (by omega) (by omega) h
        exact ⟨by rw [e1], e2⟩
  obtain ⟨h3, h⟩ := dirs_inj ds ds' _ _ hdw hdw' (ofNat_inj hdl hdl' hd) (by omega) (by omega) (sels_noArgs _ _).1 (sels_noArgs _ _).1 hvs.2
  obtain ⟨h4, h⟩ := sels_inj ss ss' r r' hsw hsw' (by omega) (by omega) h
  rw [hk, h1, hvs.1, h3, h4]
  exact ⟨rfl, h⟩

theorem frag_inj (f f' : Fragment) (r r' : Bytes) (hw : f.WF) (hw' : f'.WF) (hl : (encFragment f).length < 2 ^ 32)
    (hl' : (encFragment f').length < 2 ^ 32) (h : encFragment f ++ r = encFragment f' ++ r') : f = f' ∧ r = r' := by
  obtain ⟨n, t, ss⟩ := f
  obtain ⟨n', t', ss'⟩ := f'
  simp only [encFragment, List.append_assoc, List.length_append, List.cons_append, List.nil_append, List.length_cons] at h hl hl'
  injection h with _ h
  injection h with _ h
  obtain ⟨h1, h⟩ := split_name (name_no_nul hw.1) (name_no_nul hw'.1) (term_cons _) (term_cons _) h
  injection h with _ h
  obtain ⟨h2, h⟩ := split_name (name_no_nul hw.2.1) (name_no_nul hw'.2.1) (sels_noArgs _ _).1 (sels_noArgs _ _).1 h
  obtain ⟨h4, h⟩ := sels_inj ss ss' r r' hw.2.2 hw'.2.2 (by omega) (by omega) h
  dsimp only at h1 h2
  rw [h1, h2, h4]
  exact ⟨rfl, h⟩

/-- **The encoding is injective** on well-formed documents whose encoding is shorter than 2^32 bytes. -/
theorem encDoc_inj : ∀ (d d' : List Def), docWF d → docWF d' → (encDoc d).length < 2 ^ 32 → (encDoc d').length < 2 ^ 32 →
    encDoc d = encDoc d' → d = d'
  | [], [], _, _, _, _, _ => rfl
  | [], x :: xs, _, _, _, _, h => by cases x <;> simp [encDoc, encDef, encOperation, encFragment] at h
  | x :: xs, [], _, _, _, _, h => by cases x <;> simp [encDoc, encDef, encOperation, encFragment] at h
  | x :: xs, y :: ys, hw, hw', hl, hl', h => by
    have wx := hw x (List.mem_cons_self ..)
    have wy := hw' y (List.mem_cons_self ..)
    simp only [encDoc, List.length_append] at h hl hl'
    have key : x = y ∧ encDoc xs = encDoc ys := by
      cases x with
      | op o =>
        cases y with
        | op o' =>
          obtain ⟨h1, h2⟩ := op_inj o o' _ _ wx wy (by simp only [encDef] at hl; omega) (by simp only [encDef] at hl'; omega) h
          exact ⟨by rw [h1], h2⟩
        | frag f => simp [encDef, encOperation, encFragment] at h
      | frag f =>
        cases y with
        | op o => simp [encDef, encOperation, encFragment] at h
        | frag f' =>
          obtain ⟨h1, h2⟩ := frag_inj f f' _ _ wx wy (by simp only [encDef] at hl; omega) (by simp only [encDef] at hl'; omega) h
          exact ⟨by rw [h1], h2⟩
    rw [key.1, encDoc_inj xs ys (fun z hz => hw z (List.mem_cons_of_mem _ hz)) (fun z hz => hw' z (List.mem_cons_of_mem _ hz)) (by omega) (by omega) key.2]

end Doc
end Yarql
