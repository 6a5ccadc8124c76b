import Verif.Model.JsonString
import Verif.Spec.JsonString

/-! Helper lemmas for the JSON string encoder. -/

namespace Yarql
namespace JsonString
open Utf8

theorem ofNat_eq {n : Nat} {b : Byte} (h : b.toNat = n) : UInt8.ofNat n = b := by
  subst h; exact UInt8.ofNat_toNat

theorem toNat_ofNat_lt {n : Nat} (h : n < 256) : (UInt8.ofNat n).toNat = n := by
  rw [UInt8.toNat_ofNat']; omega

theorem table2 {n : Nat} (h1 : 0xC2 ≤ n) (h2 : n < 0xE0) :
    runeSize n = 2 ∧ acceptLo n = 0x80 ∧ acceptHi n = 0xBF := by
  unfold runeSize acceptLo acceptHi
  refine ⟨?_, ?_, ?_⟩
  · rw [if_pos h2]
  · rw [if_neg (by omega), if_neg (by omega)]
  · rw [if_neg (by omega), if_neg (by omega)]

theorem table3 {n : Nat} (h1 : 0xE0 ≤ n) (h2 : n < 0xF0) : runeSize n = 3 := by
  unfold runeSize; rw [if_neg (by omega), if_pos h2]

theorem table4 {n : Nat} (h1 : 0xF0 ≤ n) : runeSize n = 4 := by
  unfold runeSize; rw [if_neg (by omega), if_neg (by omega)]

theorem accept_iff (n m : Nat) : (m < acceptLo n ∨ acceptHi n < m) ↔
    ¬ ((0x80 ≤ m ∧ m ≤ 0xBF) ∧ (n = 0xE0 → 0xA0 ≤ m) ∧ (n = 0xF0 → 0x90 ≤ m) ∧
      (n = 0xED → m ≤ 0x9F) ∧ (n = 0xF4 → m ≤ 0x8F)) := by
  unfold acceptLo acceptHi
  split <;> split <;> (try split) <;> (try split) <;> omega

theorem dec1 (b0 : Byte) (r : Bytes) (h : b0.toNat < 0x80) : decodeRune (b0 :: r) = (b0.toNat, 1) := by
  simp only [decodeRune, if_pos h]

theorem dec2 (b0 b1 : Byte) (r : Bytes) (h1 : 0xC2 ≤ b0.toNat) (h2 : b0.toNat < 0xE0)
    (h3 : 0x80 ≤ b1.toNat ∧ b1.toNat ≤ 0xBF) :
    decodeRune (b0 :: b1 :: r) = (b0.toNat % 0x20 * 0x40 + b1.toNat % 0x40, 2) := by
  have hc : ¬ (b1.toNat < acceptLo b0.toNat ∨ acceptHi b0.toNat < b1.toNat) := by
    rw [accept_iff]; omega
  have hl : ¬ (b0 :: b1 :: r).length < runeSize b0.toNat := by
    rw [(table2 h1 h2).1]; simp
  unfold decodeRune
  simp only
  rw [if_neg (by omega), if_neg (by omega), if_neg hl, if_neg hc, if_pos (by rw [(table2 h1 h2).1]; omega)]

theorem dec3 (b0 b1 b2 : Byte) (r : Bytes) (h1 : 0xE0 ≤ b0.toNat) (h2 : b0.toNat < 0xF0)
    (h3 : 0x80 ≤ b1.toNat ∧ b1.toNat ≤ 0xBF) (h4 : b0.toNat = 0xE0 → 0xA0 ≤ b1.toNat)
    (h5 : b0.toNat = 0xED → b1.toNat ≤ 0x9F) (h6 : 0x80 ≤ b2.toNat ∧ b2.toNat ≤ 0xBF) :
    decodeRune (b0 :: b1 :: b2 :: r) =
      (b0.toNat % 0x10 * 0x1000 + b1.toNat % 0x40 * 0x40 + b2.toNat % 0x40, 3) := by
  have hc : ¬ (b1.toNat < acceptLo b0.toNat ∨ acceptHi b0.toNat < b1.toNat) := by
    rw [accept_iff]; omega
  have hl : ¬ (b0 :: b1 :: b2 :: r).length < runeSize b0.toNat := by
    rw [table3 h1 h2]; simp
  unfold decodeRune
  simp only
  rw [if_neg (by omega), if_neg (by omega), if_neg hl, if_neg hc, if_neg (by rw [table3 h1 h2]; omega),
    if_neg (by omega), if_pos (by rw [table3 h1 h2]; omega)]

theorem dec4 (b0 b1 b2 b3 : Byte) (r : Bytes) (h1 : 0xF0 ≤ b0.toNat) (h2 : b0.toNat < 0xF5)
    (h3 : 0x80 ≤ b1.toNat ∧ b1.toNat ≤ 0xBF) (h4 : b0.toNat = 0xF0 → 0x90 ≤ b1.toNat)
    (h5 : b0.toNat = 0xF4 → b1.toNat ≤ 0x8F) (h6 : 0x80 ≤ b2.toNat ∧ b2.toNat ≤ 0xBF)
    (h7 : 0x80 ≤ b3.toNat ∧ b3.toNat ≤ 0xBF) :
    decodeRune (b0 :: b1 :: b2 :: b3 :: r) =
      (b0.toNat % 0x08 * 0x40000 + b1.toNat % 0x40 * 0x1000 + b2.toNat % 0x40 * 0x40 + b3.toNat % 0x40, 4) := by
  have hc : ¬ (b1.toNat < acceptLo b0.toNat ∨ acceptHi b0.toNat < b1.toNat) := by
    rw [accept_iff]; omega
  have hl : ¬ (b0 :: b1 :: b2 :: b3 :: r).length < runeSize b0.toNat := by
    rw [table4 h1]; simp
  unfold decodeRune
  simp only
  rw [if_neg (by omega), if_neg (by omega), if_neg hl, if_neg hc, if_neg (by rw [table4 h1]; omega),
    if_neg (by omega), if_neg (by rw [table4 h1]; omega), if_neg (by omega)]

theorem decodeRune_enc (c : Nat) (hc : Scalar c) (r : Bytes) :
    decodeRune (enc c ++ r) = (c, (enc c).length) := by
  unfold enc Scalar at *
  split
  · have h0 := toNat_ofNat_lt (n := c) (by omega)
    simp only [List.cons_append, List.nil_append]
    rw [dec1 _ _ (by omega), h0]; rfl
  · split
    · have h0 := toNat_ofNat_lt (n := 0xC0 + c / 0x40) (by omega)
      have h1 := toNat_ofNat_lt (n := 0x80 + c % 0x40) (by omega)
      simp only [List.cons_append, List.nil_append]
      rw [dec2 _ _ _ (by omega) (by omega) (by omega), h0, h1, Prod.mk.injEq]
      exact ⟨by omega, rfl⟩
    · split
      · have h0 := toNat_ofNat_lt (n := 0xE0 + c / 0x1000) (by omega)
        have h1 := toNat_ofNat_lt (n := 0x80 + c / 0x40 % 0x40) (by omega)
        have h2 := toNat_ofNat_lt (n := 0x80 + c % 0x40) (by omega)
        simp only [List.cons_append, List.nil_append]
        rw [dec3 _ _ _ _ (by omega) (by omega) (by omega) (by omega) (by omega) (by omega), h0, h1, h2,
          Prod.mk.injEq]
        exact ⟨by omega, rfl⟩
      · have h0 := toNat_ofNat_lt (n := 0xF0 + c / 0x40000) (by omega)
        have h1 := toNat_ofNat_lt (n := 0x80 + c / 0x1000 % 0x40) (by omega)
        have h2 := toNat_ofNat_lt (n := 0x80 + c / 0x40 % 0x40) (by omega)
        have h3 := toNat_ofNat_lt (n := 0x80 + c % 0x40) (by omega)
        simp only [List.cons_append, List.nil_append]
        rw [dec4 _ _ _ _ _ (by omega) (by omega) (by omega) (by omega) (by omega) (by omega) (by omega), h0, h1,
          h2, h3, Prod.mk.injEq]
        exact ⟨by omega, rfl⟩

theorem enc_pos (c : Nat) : 0 < (enc c).length := by 
  unfold enc
  split
  · exact Nat.succ_pos _
  · split
    · exact Nat.succ_pos _
    · split <;> exact Nat.succ_pos _

theorem enc_length_one {c : Nat} (h : (enc c).length = 1) : c < 0x80 := by
  unfold enc at h
  split at h
  · assumption
  · split at h
    · simp at h
    · split at h <;> simp at h

theorem enc_prefix_free {c d : Nat} (hc : Scalar c) (hd : Scalar d) {r r' : Bytes}
    (h : enc c ++ r = enc d ++ r') : c = d ∧ r = r' := by
  have h1 := decodeRune_enc c hc r
  rw [h, decodeRune_enc d hd r'] at h1
  simp at h1
  obtain ⟨rfl, _⟩ := h1
  exact ⟨rfl, List.append_cancel_left h⟩

theorem decodeRune_valid (s : Bytes) (b : Byte) (t : Bytes) (hs : s = b :: t) (hb : ¬ b < 0x80)
    (hv : ¬ (decodeRune s = (0xFFFD, 1))) :
    Scalar (decodeRune s).1 ∧ 0x80 ≤ (decodeRune s).1 ∧
      s = enc (decodeRune s).1 ++ s.drop (decodeRune s).2 ∧
      (decodeRune s).2 = (enc (decodeRune s).1).length := by
  have hb : 128 ≤ b.toNat := by
    have : ¬ b.toNat < 128 := fun h => hb (by rw [UInt8.lt_iff_toNat_lt]; exact h)
    omega
  subst hs
  have hlt := b.toNat_lt
  -- the decoder's result, by cases on what it tests
  have hcases : decodeRune (b :: t) = (0xFFFD, 1) ∨
      (∃ b1 r, t = b1 :: r ∧ 0xC2 ≤ b.toNat ∧ b.toNat < 0xE0 ∧ (0x80 ≤ b1.toNat ∧ b1.toNat ≤ 0xBF)) ∨
      (∃ b1 b2 r, t = b1 :: b2 :: r ∧ 0xE0 ≤ b.toNat ∧ b.toNat < 0xF0 ∧
        (0x80 ≤ b1.toNat ∧ b1.toNat ≤ 0xBF) ∧ (b.toNat = 0xE0 → 0xA0 ≤ b1.toNat) ∧
        (b.toNat = 0xED → b1.toNat ≤ 0x9F) ∧ (0x80 ≤ b2.toNat ∧ b2.toNat ≤ 0xBF)) ∨
      (∃ b1 b2 b3 r, t = b1 :: b2 :: b3 :: r ∧ 0xF0 ≤ b.toNat ∧ b.toNat < 0xF5 ∧
        (0x80 ≤ b1.toNat ∧ b1.toNat ≤ 0xBF) ∧ (b.toNat = 0xF0 → 0x90 ≤ b1.toNat) ∧
        (b.toNat = 0xF4 → b1.toNat ≤ 0x8F) ∧ (0x80 ≤ b2.toNat ∧ b2.toNat ≤ 0xBF) ∧
        (0x80 ≤ b3.toNat ∧ b3.toNat ≤ 0xBF)) := by
    unfold decodeRune
    simp only
    rw [if_neg (by omega)]
    split
    · exact Or.inl rfl
    · rename_i hrange
      split
      · exact Or.inl rfl
      · rename_i b1 r
        split
        · exact Or.inl rfl
        · split
          · exact Or.inl rfl
          · rename_i hacc
            rw [accept_iff, Classical.not_not] at hacc
            split
            · rename_i hsz
              refine Or.inr (Or.inl ⟨b1, r, rfl, by omega, ?_, hacc.1⟩)
              unfold runeSize at hsz
              split at hsz
              · assumption
              · split at hsz <;> omega
            · rename_i hsz
              have hge : 0xE0 ≤ b.toNat := by
                unfold runeSize at hsz
                split at hsz <;> omega
              split
              · exact Or.inl rfl
              · rename_i b2 r _
                split
                · exact Or.inl rfl
                · rename_i h2
                  split
                  · rename_i hsz3
                    have hlt3 : b.toNat < 0xF0 := by
                      unfold runeSize at hsz3
                      split at hsz3
                      · omega
                      · split at hsz3 <;> omega
                    exact Or.inr (Or.inr (Or.inl ⟨b1, b2, r, rfl, hge, hlt3, hacc.1, hacc.2.1, hacc.2.2.2.1,
                      by omega⟩))
                  · rename_i hsz3
                    have hge4 : 0xF0 ≤ b.toNat := by
                      unfold runeSize at hsz3
                      split at hsz3
                      · omega
                      · split at hsz3 <;> omega
                    split
                    · exact Or.inl rfl
                    · rename_i b3 r _
                      split
                      · exact Or.inl rfl
                      · exact Or.inr (Or.inr (Or.inr ⟨b1, b2, b3, r, rfl, hge4, by omega, hacc.1, hacc.2.2.1,
                          hacc.2.2.2.2, by omega, by omega⟩))
  rcases hcases with h | ⟨b1, r, rfl, h1, h2, h3⟩ | ⟨b1, b2, r, rfl, h1, h2, h3, h4, h5, h6⟩ |
    ⟨b1, b2, b3, r, rfl, h1, h2, h3, h4, h5, h6, h7⟩
  · exact absurd h hv
  · rw [dec2 _ _ _ h1 h2 h3]
    unfold enc Scalar
    simp only
    refine ⟨by omega, by omega, ?_⟩
    rw [if_neg (by omega), if_pos (by omega), ofNat_eq (b := b) (by omega), ofNat_eq (b := b1) (by omega)]
    exact ⟨rfl, rfl⟩
  · rw [dec3 _ _ _ _ h1 h2 h3 h4 h5 h6]
    unfold enc Scalar
    simp only
    refine ⟨by omega, by omega, ?_⟩
    rw [if_neg (by omega), if_neg (by omega), if_pos (by omega), ofNat_eq (b := b) (by omega),
      ofNat_eq (b := b1) (by omega), ofNat_eq (b := b2) (by omega)]
    exact ⟨rfl, rfl⟩
  · rw [dec4 _ _ _ _ _ h1 h2 h3 h4 h5 h6 h7]
    unfold enc Scalar
    simp only
    refine ⟨by omega, by omega, ?_⟩
    rw [if_neg (by omega), if_neg (by omega), if_neg (by omega), ofNat_eq (b := b) (by omega),
      ofNat_eq (b := b1) (by omega), ofNat_eq (b := b2) (by omega), ofNat_eq (b := b3) (by omega)]
    exact ⟨rfl, rfl⟩

theorem decodeRune_invalid (s : Bytes) (hv : decodeRune s = (0xFFFD, 1)) :
    ¬ ∃ c, Scalar c ∧ enc c <+: s := by
  rintro ⟨c, hc, r, rfl⟩
  rw [decodeRune_enc c hc r] at hv
  simp at hv
  have := enc_length_one hv.2
  omega

open Json

theorem take_drop_grow (s : Bytes) (start i n : Nat) (h : start ≤ i) (hi : i ≤ s.length) :
    (s.take (i + n)).drop start = (s.take i).drop start ++ (s.drop i).take n := by
  rw [List.take_add, List.drop_append_of_le_length]
  rw [List.length_take]; omega

theorem flush_eq (s : Bytes) (start i : Nat) (e : Bytes) (h : start ≤ i) :
    flush s start i e = e ++ (s.take i).drop start := by
  unfold flush
  split
  · rfl
  · have : start = i := by omega
    subst this
    rw [List.drop_of_length_le (by rw [List.length_take]; omega), List.append_nil]

theorem enc_ascii (b : Byte) (h : b < 0x80) : enc b.toNat = [b] := by
  have : b.toNat < 128 := by rw [UInt8.lt_iff_toNat_lt] at h; exact h
  unfold enc
  rw [if_pos this, UInt8.ofNat_toNat]

theorem scalar_ascii (b : Byte) (h : b < 0x80) : Scalar b.toNat := by
  have : b.toNat < 128 := by rw [UInt8.lt_iff_toNat_lt] at h; exact h
  exact Or.inl (by omega)

/-- Every escape written for an ASCII byte is a JSON escape of that byte. -/
theorem escape_correct (b : Byte) (h : b < 0x80) (r : Bytes) (cs : List Nat) (hr : JChars r cs) :
    JChars (escapeByte b ++ r) (b.toNat :: cs) := by
  unfold escapeByte
  by_cases h1 : b = c%'\\'
  · subst h1; exact JChars.escape (by decide) hr
  by_cases h2 : b = c%'"'
  · subst h2; exact JChars.escape (by decide) hr
  by_cases h3 : b = c%'\n'
  · subst h3; exact JChars.escape (by decide) hr
  by_cases h4 : b = c%'\r'
  · subst h4; exact JChars.escape (by decide) hr
  by_cases h5 : b = c%'\t'
  · subst h5; exact JChars.escape (by decide) hr
  have e1 : (b == c%'\\' || b == c%'"') = false := by simp [h1, h2]
  simp only [e1, beq_iff_eq, h3, h4, h5, Bool.false_eq_true, if_false, List.cons_append, List.nil_append]
  have key : ∀ x : BitVec 8, x.toNat < 128 →
      hex4 48 48 (hexChar ((⟨x⟩ : UInt8) >>> 4).toNat) (hexChar ((⟨x⟩ : UInt8) &&& 0xF).toNat) = some x.toNat := by
    decide +kernel
  have hb : b.toNat < 128 := by rw [UInt8.lt_iff_toNat_lt] at h; exact h
  exact JChars.unicode (key b.toBitVec hb) (scalar_ascii b h) hr

theorem drop_cons_next {s : Bytes} {i : Nat} {b : Byte} {t : Bytes} (h : s.drop i = b :: t) :
    s.drop (i + 1) = t := by
  rw [← List.drop_drop, h]; rfl

theorem loop_correct (s : Bytes) : ∀ (fuel start i : Nat) (e : Bytes), start ≤ i → i ≤ s.length →
    s.length - i < fuel →
    ∃ tail cs, loop s fuel start i e = e ++ (s.take i).drop start ++ tail ++ [c%'"'] ∧
      JChars tail cs ∧ Reads (s.drop i) cs := by
  intro fuel
  induction fuel with
  | zero => intro start i e _ _ h; omega
  | succ fuel ih =>
    intro start i e hs hi hf
    unfold loop
    simp only
    split
    · rename_i hd
      have hlen : s.length = i := by
        have := congrArg List.length hd
        simp at this; omega
      refine ⟨[], [], ?_, JChars.nil, by rw [hd]; exact Reads.nil⟩
      split
      · simp [← hlen]
      · simp [← hlen]
        omega
    · rename_i b t hd
      have hlt : i < s.length := by
        have := congrArg List.length hd
        simp at this; omega
      have hnext := drop_cons_next hd
      split
      · rename_i hb
        have hval : ∀ cs, Reads (s.drop (i + 1)) cs → Reads (s.drop i) (b.toNat :: cs) := by
          intro cs hcs
          rw [hnext] at hcs
          have := Reads.valid (scalar_ascii b hb) hcs
          rw [enc_ascii b hb] at this
          rw [hd]; exact this
        have hraw : ∀ tail cs, 32 ≤ b.toNat → b.toNat ≠ 0x22 → b.toNat ≠ 0x5C → JChars tail cs →
            JChars (b :: tail) (b.toNat :: cs) := by
          intro tail cs h1 h2 h3 hj
          have := JChars.unescaped (scalar_ascii b hb) h1 h2 h3 hj
          rw [enc_ascii b hb] at this
          exact this
        have hgrow : (s.take (i + 1)).drop start = (s.take i).drop start ++ [b] := by
          rw [take_drop_grow s start i 1 hs hi, hd]; rfl
        split
        · rename_i hp
          obtain ⟨tail, cs, h1, h2, h3⟩ := ih start (i + 1) e (by omega) (by omega) (by omega)
          simp only [Bool.and_eq_true, decide_eq_true_eq, bne_iff_ne, ne_eq, UInt8.le_iff_toNat_le] at hp
          refine ⟨b :: tail, b.toNat :: cs, ?_, hraw tail cs hp.1.1.1 ?_ ?_ h2, hval cs h3⟩
          · rw [h1, hgrow]; simp
          · exact fun h => hp.2 (UInt8.toNat_inj.mp h)
          · exact fun h => hp.1.2 (UInt8.toNat_inj.mp h)
        · split
          · rename_i hp
            obtain ⟨tail, cs, h1, h2, h3⟩ := ih start (i + 1) e (by omega) (by omega) (by omega)
            have hp : b = 0x7f := by simpa using hp
            refine ⟨b :: tail, b.toNat :: cs, ?_, hraw tail cs ?_ ?_ ?_ h2, hval cs h3⟩
            · rw [h1, hgrow]; simp
            all_goals subst hp; decide
          · obtain ⟨tail, cs, h1, h2, h3⟩ := ih (i + 1) (i + 1) (flush s start i e ++ escapeByte b)
              (by omega) (by omega) (by omega)
            refine ⟨escapeByte b ++ tail, b.toNat :: cs, ?_, escape_correct b hb _ _ h2, hval cs h3⟩
            rw [h1, flush_eq s start i e hs, List.drop_of_length_le (l := s.take (i + 1))
              (by rw [List.length_take]; omega)]
            simp
      · rename_i hb
        split
        · rename_i hv
          have hv : decodeRune (s.drop i) = (0xFFFD, 1) := by
            simp only [Bool.and_eq_true, beq_iff_eq] at hv
            exact Prod.ext hv.1 hv.2
          have hsz : (decodeRune (s.drop i)).2 = 1 := by rw [hv]
          rw [hsz]
          obtain ⟨tail, cs, h1, h2, h3⟩ := ih (i + 1) (i + 1) (flush s start i e ++ b%"\\ufffd")
            (by omega) (by omega) (by omega)
          refine ⟨b%"\\ufffd" ++ tail, 0xFFFD :: cs, ?_,
            JChars.unicode (by decide) (Or.inr (by decide)) h2, ?_⟩
          · rw [h1, flush_eq s start i e hs, List.drop_of_length_le (l := s.take (i + 1))
              (by rw [List.length_take]; omega)]
            simp
          · rw [hnext] at h3
            have hn := decodeRune_invalid _ hv
            rw [hd] at hn ⊢
            exact Reads.invalid hn h3
        · rename_i hv
          have hv : ¬ decodeRune (s.drop i) = (0xFFFD, 1) := by
            intro h
            rw [h] at hv
            simp at hv
          obtain ⟨g1, g2, g3, g4⟩ := decodeRune_valid _ b t hd hb hv
          generalize hc : (decodeRune (s.drop i)).1 = c at *
          generalize hz : (decodeRune (s.drop i)).2 = size at *
          have hpos := enc_pos c
          have hsize : size ≤ s.length - i := by
            have := congrArg List.length g3
            simp at this
            omega
          rw [List.drop_drop] at g3
          have hval : ∀ cs, Reads (s.drop (i + size)) cs → Reads (s.drop i) (c :: cs) := by
            intro cs h
            rw [g3]
            exact Reads.valid g1 h
          split
          · rename_i hsep
            have hsep : c = 0x2028 ∨ c = 0x2029 := by simpa using hsep
            obtain ⟨tail, cs, h1, h2, h3⟩ := ih (i + size) (i + size)
              (flush s start i e ++ b%"\\u202" ++ [hexChar (c % 16)]) (by omega) (by omega) (by omega)
            refine ⟨b%"\\u202" ++ [hexChar (c % 16)] ++ tail, c :: cs, ?_, ?_, hval cs h3⟩
            · rw [h1, flush_eq s start i e hs, List.drop_of_length_le (l := s.take (i + size))
                (by rw [List.length_take]; omega)]
              simp
            · rcases hsep with rfl | rfl
              · exact JChars.unicode (by decide) (Or.inl (by decide)) h2
              · exact JChars.unicode (by decide) (Or.inl (by decide)) h2
          · obtain ⟨tail, cs, h1, h2, h3⟩ := ih start (i + size) e (by omega) (by omega) (by omega)
            refine ⟨enc c ++ tail, c :: cs, ?_, JChars.unescaped g1 (by omega) (by omega) (by omega) h2, hval cs h3⟩
            rw [h1, take_drop_grow s start i size hs hi]
            have : (s.drop i).take size = enc c := by
              rw [g3, g4, List.take_left]
            rw [this]
            simp

/-- Reading bytes as UTF-8 is functional. -/
theorem reads_unique {bs : Bytes} {cs ds : List Nat} (h1 : Reads bs cs) (h2 : Reads bs ds) : cs = ds := by
  induction h1 generalizing ds with
  | nil =>
    generalize hb : ([] : Bytes) = bs at h2
    cases h2 with
    | nil => rfl
    | @valid c r cs hc hr =>
      have := enc_pos c
      have h := congrArg List.length hb
      simp only [List.length_append, List.length_nil] at h
      omega
    | invalid => cases hb
  | @valid c r cs hc hr ih =>
    generalize hb : enc c ++ r = bs at h2
    cases h2 with
    | nil =>
      have := enc_pos c
      have h := congrArg List.length hb
      simp only [List.length_append, List.length_nil] at h
      omega
    | valid hd hr' =>
      obtain ⟨rfl, rfl⟩ := enc_prefix_free hc hd hb
      rw [ih hr']
    | invalid hn _ => exact absurd ⟨c, hc, r, hb⟩ hn
  | @invalid b r cs hn hr ih =>
    generalize hb : b :: r = bs at h2
    cases h2 with
    | nil => cases hb
    | @valid d r' ds hd hr' => exact absurd ⟨d, hd, r', hb.symm⟩ hn
    | invalid _ hr' =>
      cases hb
      rw [ih hr']

theorem enc_backslash {c : Nat} {r t : Bytes} (hc : Scalar c) (h : enc c ++ r = c%'\\' :: t) : c = 0x5C := by
  have h' : enc c ++ r = enc 0x5C ++ t := by rw [h]; rfl
  exact (enc_prefix_free hc (Or.inl (by decide)) h').1

/-- A JSON string content denotes one code point sequence. -/
theorem jchars_unique {bs : Bytes} {cs ds : List Nat} (h1 : JChars bs cs) (h2 : JChars bs ds) : cs = ds := by
  induction h1 generalizing ds with
  | nil =>
    generalize hb : ([] : Bytes) = bs at h2
    cases h2 with
    | nil => rfl
    | @unescaped c =>
      have := enc_pos c
      have h := congrArg List.length hb
      simp only [List.length_append, List.length_nil] at h
      omega
    | escape => cases hb
    | unicode => cases hb
    | surrogates => cases hb
  | @unescaped c r cs hc h3 h4 h5 hr ih =>
    generalize hb : enc c ++ r = bs at h2
    cases h2 with
    | nil =>
      have := enc_pos c
      have h := congrArg List.length hb
      simp only [List.length_append, List.length_nil] at h
      omega
    | unescaped hd _ _ _ hr' =>
      obtain ⟨rfl, rfl⟩ := enc_prefix_free hc hd hb
      rw [ih hr']
    | escape => exact absurd (enc_backslash hc hb) h5
    | unicode => exact absurd (enc_backslash hc hb) h5
    | surrogates => exact absurd (enc_backslash hc hb) h5
  | @escape e c r cs he hr ih =>
    generalize hb : c%'\\' :: e :: r = bs at h2
    cases h2 with
    | nil => cases hb
    | unescaped hd _ _ h5 hr' => exact absurd (enc_backslash hd hb.symm) h5
    | escape he' hr' =>
      cases hb
      rw [he] at he'
      cases he'
      rw [ih hr']
    | unicode => cases hb; exact absurd he (by simp [simpleEscape])
    | surrogates => cases hb; exact absurd he (by simp [simpleEscape])
  | @unicode a1 a2 a3 a4 n r cs hh hn hr ih =>
    generalize hb : c%'\\' :: c%'u' :: a1 :: a2 :: a3 :: a4 :: r = bs at h2
    cases h2 with
    | nil => cases hb
    | unescaped hd _ _ h5 hr' => exact absurd (enc_backslash hd hb.symm) h5
    | escape he' hr' => cases hb; exact absurd he' (by simp [simpleEscape])
    | unicode hh' _ hr' =>
      cases hb
      rw [hh] at hh'
      cases hh'
      rw [ih hr']
    | surrogates hh' _ h1 h2 =>
      cases hb
      rw [hh] at hh'
      cases hh'
      unfold Scalar at hn
      omega
  | @surrogates a1 a2 a3 a4 b1 b2 b3 b4 hi lo r cs hh hl h3 h4 h5 h6 hr ih =>
    generalize hb : c%'\\' :: c%'u' :: a1 :: a2 :: a3 :: a4 :: c%'\\' :: c%'u' :: b1 :: b2 :: b3 :: b4 :: r = bs at h2
    cases h2 with
    | nil => cases hb
    | unescaped hd _ _ h5 hr' => exact absurd (enc_backslash hd hb.symm) h5
    | escape he' hr' => cases hb; exact absurd he' (by simp [simpleEscape])
    | unicode hh' hn _ =>
      cases hb
      rw [hh] at hh'
      cases hh'
      unfold Scalar at hn
      omega
    | surrogates hh' hl' _ _ _ _ hr' =>
      cases hb
      rw [hh] at hh'
      rw [hl] at hl'
      cases hh'
      cases hl'
      rw [ih hr']

end JsonString
end Yarql
