import Verif.Model.Decimal

/-! Facts about decimal output. -/

namespace Yarql

theorem natDigitsF_fuel (n : Nat) : ∀ f g, n < f → n < g → natDigitsF f n = natDigitsF g n := by
  induction n using Nat.strongRecOn with
  | _ n ih =>
    intro f g hf hg
    obtain ⟨f, rfl⟩ : ∃ k, f = k + 1 := ⟨f - 1, by omega⟩
    obtain ⟨g, rfl⟩ : ∃ k, g = k + 1 := ⟨g - 1, by omega⟩
    simp only [natDigitsF]
    split
    · rfl
    · rw [ih (n / 10) (by omega) f g (by omega) (by omega)]

theorem natDigits_small {n : Nat} (h : n < 10) : natDigits n = [digit n] := by
  simp [natDigits, natDigitsF, h]

theorem natDigits_step {n : Nat} (h : 10 ≤ n) : natDigits n = natDigits (n / 10) ++ [digit n] := by
  unfold natDigits
  rw [natDigitsF, if_neg (by omega), natDigitsF_fuel (n / 10) n (n / 10 + 1) (by omega) (by omega)]

/-- value of a digit string -/
def decVal (s : Bytes) : Nat := s.foldl (fun acc b => acc * 10 + (b.toNat - 48)) 0

theorem digit_toNat (n : Nat) : (digit n).toNat = 48 + n % 10 := by
  unfold digit
  rw [UInt8.toNat_ofNat']
  omega

theorem decVal_snoc (s : Bytes) (b : Byte) : decVal (s ++ [b]) = decVal s * 10 + (b.toNat - 48) := by
  simp [decVal]

theorem decVal_natDigits (n : Nat) : decVal (natDigits n) = n := by
  induction n using Nat.strongRecOn with
  | _ n ih =>
    by_cases h : n < 10
    · rw [natDigits_small h]
      simp only [decVal, List.foldl_cons, List.foldl_nil, digit_toNat]
      omega
    · rw [natDigits_step (by omega), decVal_snoc, ih (n / 10) (by omega), digit_toNat]
      omega

theorem natDigits_digits (n : Nat) : ∀ b ∈ natDigits n, 48 ≤ b.toNat ∧ b.toNat ≤ 57 := by
  induction n using Nat.strongRecOn with
  | _ n ih =>
    by_cases h : n < 10
    · rw [natDigits_small h]
      intro b hb
      rw [List.mem_singleton.1 hb, digit_toNat]
      omega
    · rw [natDigits_step (by omega)]
      intro b hb
      rcases List.mem_append.1 hb with hb | hb
      · exact ih (n / 10) (by omega) b hb
      · rw [List.mem_singleton.1 hb, digit_toNat]
        omega

theorem natDigits_ne_nil (n : Nat) : natDigits n ≠ [] := by
  by_cases h : n < 10
  · rw [natDigits_small h]; simp
  · rw [natDigits_step (by omega)]; simp

/-- no leading zero except for `0` itself -/
theorem natDigits_head (n : Nat) (h : n ≠ 0) : (natDigits n).head? ≠ some 48 := by
  induction n using Nat.strongRecOn with
  | _ n ih =>
    by_cases hn : n < 10
    · rw [natDigits_small hn]
      simp only [List.head?_cons, ne_eq, Option.some.injEq, ← UInt8.toNat_inj, digit_toNat, UInt8.reduceToNat]
      omega
    · rw [natDigits_step (by omega)]
      have := ih (n / 10) (by omega) (by omega)
      have hne := natDigits_ne_nil (n / 10)
      cases hd : natDigits (n / 10) with
      | nil => exact absurd hd hne
      | cons a r => rw [hd] at this; simpa using this

theorem natDigits_injective {n m : Nat} (h : natDigits n = natDigits m) : n = m := by
  rw [← decVal_natDigits n, h, decVal_natDigits]

end Yarql
