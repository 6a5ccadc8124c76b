import Verif.Model.Float
import Verif.Spec.Json
import Verif.Spec.Binding

/-!
# C55: floats are written as JSON numbers of the same value
-/

namespace Yarql
namespace Float
open Binding Doc Json

/-- The texts `strconv.FormatFloat(f, 'f', -1, bits)` returns for finite floats: `-ddd.ddd`, the integer part without leading zeros,
the fraction possibly absent. -/
def FText (b : Bytes) : Prop := ∃ sign i f, b = sign ++ i ++ f ∧ (sign = [] ∨ sign = [c%'-']) ∧ JInt i ∧ JFrac f

/-- `t` is the mantissa `mant` and an exponent of value `exp`, written with sign and at least `k` digits. -/
def Exponential (k : Nat) (t mant : Bytes) (exp : Int) : Prop :=
  ∃ es ds n, t = mant ++ [c%'e'] ++ es ++ ds ∧ k ≤ ds.length ∧ NatText ds n ∧ ((es = [c%'+'] ∧ exp = n) ∨ (es = [c%'-'] ∧ exp = -(n : Int)))

/-- a mantissa and exponent make a JSON number -/
theorem jnumber_of {k : Nat} {t mant : Bytes} {exp : Int} (hm : FText mant) (h : Exponential k t mant exp) : JNumber t := by
  obtain ⟨es, ds, n, rfl, -, ⟨hne, hd, -⟩, h2⟩ := h
  obtain ⟨sign, i, f, rfl, hs, hi, hf⟩ := hm
  refine ⟨sign, i, f, c%'e' :: es ++ ds, by simp, hs, hi, hf, Or.inr ⟨c%'e', es, ds, rfl, Or.inl rfl, ?_, hne, ?_⟩⟩
  · rcases h2 with ⟨h, -⟩ | ⟨h, -⟩
    · exact Or.inr (Or.inl h)
    · exact Or.inr (Or.inr h)
  · intro b hb
    obtain ⟨h1, h2⟩ := hd b hb
    exact ⟨UInt8.le_iff_toNat_le.1 h1, UInt8.le_iff_toNat_le.1 h2⟩

/-- **C55** (`'f'` format): the text is a JSON number and is written unchanged. -/
theorem C55_plain (b : Bytes) (h : FText b) : floatToJSON false false b = b ∧ JNumber (floatToJSON false false b) := by
  obtain ⟨sign, i, f, rfl, hs, hi, hf⟩ := h
  exact ⟨rfl, sign, i, f, [], by simp [floatToJSON], hs, hi, hf, Or.inl rfl⟩

/-- the last four bytes -/
theorem last4 (pre : Bytes) (a b c d : Byte) : cleanable (pre ++ [a, b, c, d]) = true ↔ a = c%'e' ∧ b = c%'-' ∧ c = c%'0' := by
  have e : (pre ++ [a, b, c, d]).length - 4 = pre.length := by simp
  unfold cleanable
  dsimp only
  rw [e, List.drop_left]
  simp

/-- **C55** (`'e'` format, `-d.ddde±dd` with at least two exponent digits): a JSON number with the same mantissa and the same
exponent is written. -/
theorem C55_exponential (b mant : Bytes) (exp : Int) (hm : FText mant) (h : Exponential 2 b mant exp) :
    Exponential 1 (floatToJSON false true b) mant exp ∧ JNumber (floatToJSON false true b) := by
  suffices hx : Exponential 1 (floatToJSON false true b) mant exp from ⟨hx, jnumber_of hm hx⟩
  obtain ⟨es, ds, n, rfl, hlen, ⟨hne, hd, hval⟩, h2⟩ := h
  obtain ⟨sg, rfl, hsg⟩ : ∃ sg, es = [sg] ∧ (sg = c%'+' ∨ sg = c%'-') := by
    rcases h2 with ⟨h, -⟩ | ⟨h, -⟩
    · exact ⟨_, h, Or.inl rfl⟩
    · exact ⟨_, h, Or.inr rfl⟩
  have keep : cleanable (mant ++ [c%'e'] ++ [sg] ++ ds) = false →
      Exponential 1 (floatToJSON false true (mant ++ [c%'e'] ++ [sg] ++ ds)) mant exp := by
    intro hc
    unfold floatToJSON
    rw [hc]
    exact ⟨[sg], ds, n, by simp, by omega, ⟨hne, hd, hval⟩, h2⟩
  match ds, hlen with
  | [d1, d2], _ =>
    have e : mant ++ [c%'e'] ++ [sg] ++ [d1, d2] = mant ++ [c%'e', sg, d1, d2] := by simp
    by_cases hc : cleanable (mant ++ [c%'e'] ++ [sg] ++ [d1, d2]) = true
    · rw [e] at hc
      obtain ⟨-, rfl, rfl⟩ := (last4 _ _ _ _ _).1 hc
      have hout : floatToJSON false true (mant ++ [c%'e'] ++ [c%'-'] ++ [c%'0', d2]) = mant ++ [c%'e'] ++ [c%'-'] ++ [d2] := by
        rw [e]
        unfold floatToJSON
        rw [hc]
        have e1 : (mant ++ [c%'e', c%'-', c%'0', d2]).length - 2 = (mant ++ [c%'e', c%'-']).length := by simp
        have e2 : (mant ++ [c%'e', c%'-', c%'0', d2]).length - 1 = (mant ++ [c%'e', c%'-', c%'0']).length := by simp
        rw [e1, e2]
        have e3 : mant ++ [c%'e', c%'-', c%'0', d2] = (mant ++ [c%'e', c%'-']) ++ [c%'0', d2] := by simp
        have e4 : mant ++ [c%'e', c%'-', c%'0', d2] = (mant ++ [c%'e', c%'-', c%'0']) ++ [d2] := by simp
        have e5 : List.take (mant ++ [c%'e', c%'-']).length (mant ++ [c%'e', c%'-', c%'0', d2]) = mant ++ [c%'e', c%'-'] := by
          rw [e3, List.take_left]
        have e6 : List.drop (mant ++ [c%'e', c%'-', c%'0']).length (mant ++ [c%'e', c%'-', c%'0', d2]) = [d2] := by
          rw [e4, List.drop_left]
        rw [e5, e6]
        simp
      rw [hout]
      refine ⟨[c%'-'], [d2], n, rfl, by simp, ⟨by simp, ?_, ?_⟩, h2⟩
      · intro x hx
        exact hd x (List.mem_cons_of_mem _ hx)
      · rw [← hval]
        simp [decimal]
    · exact keep (by simpa using hc)
  | d0 :: d1 :: d2 :: rest, _ =>
    refine keep ?_
    have hnot : ∀ x ∈ sg :: (d0 :: d1 :: d2 :: rest), x ≠ c%'e' := by
      intro x hx
      rcases List.mem_cons.1 hx with rfl | hx
      · rcases hsg with rfl | rfl <;> decide
      · rintro rfl
        exact absurd (hd _ hx).2 (by decide)
    -- the last four bytes lie within sign and digits
    have split4 : ∀ (l : Bytes), 4 ≤ l.length → ∃ pre a b c d, l = pre ++ [a, b, c, d] := by
      intro l hl
      refine ⟨l.take (l.length - 4), ?_⟩
      have hd4 : (l.drop (l.length - 4)).length = 4 := by simp; omega
      match hx : l.drop (l.length - 4), hd4 with
      | [a, b, c, d], _ => exact ⟨a, b, c, d, by rw [← hx, List.take_append_drop]⟩
    obtain ⟨pre, a, b, c, d, hs⟩ := split4 (sg :: (d0 :: d1 :: d2 :: rest)) (by simp)
    have e : mant ++ [c%'e'] ++ [sg] ++ (d0 :: d1 :: d2 :: rest) = (mant ++ [c%'e'] ++ pre) ++ [a, b, c, d] := by
      rw [List.append_assoc _ [sg], List.singleton_append, hs]
      simp
    rw [e]
    cases hc : cleanable ((mant ++ [c%'e'] ++ pre) ++ [a, b, c, d]) with
    | false => rfl
    | true =>
      have := (last4 _ _ _ _ _).1 hc
      exact absurd this.1 (hnot a (by rw [hs]; simp))

/-- **C55** (infinities and NaN, which JSON cannot express): `0.0`. -/
theorem C55_special (e : Bool) (b : Bytes) : floatToJSON true e b = b%"0.0" ∧ JNumber (floatToJSON true e b) :=
  ⟨rfl, [], b%"0", b%".0", [], rfl, Or.inl rfl, ⟨⟨by simp, by intro b hb; simp at hb; subst hb; exact ⟨by decide, by decide⟩⟩, fun _ => rfl⟩,
    Or.inr ⟨b%"0", rfl, by simp, by intro b hb; simp at hb; subst hb; exact ⟨by decide, by decide⟩⟩, Or.inl rfl⟩

/-! The hypotheses are met: `-1.5e-09` becomes `-1.5e-9`, `1e+21` and `2.5e-100` stay. -/

example : floatToJSON false true b%"-1.5e-09" = b%"-1.5e-9" := by decide
example : floatToJSON false true b%"1e+21" = b%"1e+21" := by decide
example : floatToJSON false true b%"2.5e-100" = b%"2.5e-100" := by decide
example : FText b%"-1.5" := ⟨b%"-", b%"1", b%".5", rfl, Or.inr rfl,
  ⟨⟨by simp, by intro b hb; simp at hb; subst hb; exact ⟨by decide, by decide⟩⟩, fun h => by simp at h⟩,
  Or.inr ⟨b%"5", rfl, by simp, by intro b hb; simp at hb; subst hb; exact ⟨by decide, by decide⟩⟩⟩
example : Exponential 2 b%"-1.5e-09" b%"-1.5" (-9) :=
  ⟨b%"-", b%"09", 9, rfl, by decide, ⟨by simp, by unfold Digits; decide, by decide⟩, Or.inr ⟨rfl, rfl⟩⟩

end Float
end Yarql
