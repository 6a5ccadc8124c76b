import Verif.Model.Bytes

/-! Helper lemmas about bytes and little-endian words. -/

namespace Yarql

theorem le32_eq (v : UInt32) : le32 v =
    [UInt8.ofNat v.toNat, UInt8.ofNat (v.toNat / 256), UInt8.ofNat (v.toNat / 65536),
     UInt8.ofNat (v.toNat / 16777216)] := by
  have hm : ∀ n : Nat, n &&& 255 = n % 256 := fun n => Nat.and_two_pow_sub_one_eq_mod n 8
  unfold le32
  congr 1
  · apply UInt8.toNat_inj.mp
    simp [hm]
  congr 1
  · apply UInt8.toNat_inj.mp
    simp [hm, Nat.shiftRight_eq_div_pow]
  congr 1
  · apply UInt8.toNat_inj.mp
    simp [hm, Nat.shiftRight_eq_div_pow]
  congr 1
  · apply UInt8.toNat_inj.mp
    simp [hm, Nat.shiftRight_eq_div_pow]

theorem rd32_toNat (a b c d : Byte) : (rd32 a b c d).toNat =
    a.toNat + 256 * b.toNat + 65536 * c.toNat + 16777216 * d.toNat := by
  have ha := a.toNat_lt
  have hb := b.toNat_lt
  have hc := c.toNat_lt
  have hd := d.toNat_lt
  unfold rd32
  simp only [UInt32.toNat_or, UInt32.toNat_shiftLeft, UInt8.toNat_toUInt32]
  have e1 : b.toNat <<< ((8 : UInt32).toNat % 32) % 2 ^ 32 = b.toNat <<< 8 := by
    rw [Nat.mod_eq_of_lt]; · rfl
    · show b.toNat <<< 8 < _
      rw [Nat.shiftLeft_eq]; omega
  have e2 : c.toNat <<< ((16 : UInt32).toNat % 32) % 2 ^ 32 = c.toNat <<< 16 := by
    rw [Nat.mod_eq_of_lt]; · rfl
    · show c.toNat <<< 16 < _
      rw [Nat.shiftLeft_eq]; omega
  have e3 : d.toNat <<< ((24 : UInt32).toNat % 32) % 2 ^ 32 = d.toNat <<< 24 := by
    rw [Nat.mod_eq_of_lt]; · rfl
    · show d.toNat <<< 24 < _
      rw [Nat.shiftLeft_eq]; omega
  rw [e1, e2, e3]
  rw [Nat.or_comm a.toNat, ← Nat.shiftLeft_add_eq_or_of_lt (by omega : a.toNat < 2 ^ 8),
    Nat.or_comm _ (c.toNat <<< 16), ← Nat.shiftLeft_add_eq_or_of_lt (by
      rw [Nat.shiftLeft_eq]; omega : b.toNat <<< 8 + a.toNat < 2 ^ 16),
    Nat.or_comm _ (d.toNat <<< 24), ← Nat.shiftLeft_add_eq_or_of_lt (by
      rw [Nat.shiftLeft_eq, Nat.shiftLeft_eq]; omega : c.toNat <<< 16 + (b.toNat <<< 8 + a.toNat) < 2 ^ 24)]
  rw [Nat.shiftLeft_eq, Nat.shiftLeft_eq, Nat.shiftLeft_eq]
  omega

theorem le32_length (v : UInt32) : (le32 v).length = 4 := by rfl

theorem rd32_le32 (v : UInt32) :
    rd32 (UInt8.ofNat v.toNat) (UInt8.ofNat (v.toNat / 256)) (UInt8.ofNat (v.toNat / 65536))
      (UInt8.ofNat (v.toNat / 16777216)) = v := by
  apply UInt32.toNat_inj.mp
  rw [rd32_toNat]
  simp only [UInt8.toNat_ofNat']
  have := v.toNat_lt
  omega

theorem patch_length : ∀ (bs l : Bytes) (i : Nat), (patch l i bs).length = l.length
  | [], _, _ => rfl
  | _ :: xs, _, _ => by rw [patch, patch_length xs, List.length_set]

theorem patch_get : ∀ (bs l : Bytes) (i j : Nat), i + bs.length ≤ l.length →
    (patch l i bs)[j]? = if i ≤ j ∧ j < i + bs.length then bs[j - i]? else l[j]?
  | [], l, i, j, _ => by simp [patch]; omega
  | x :: xs, l, i, j, h => by
    have h' : i + 1 + xs.length ≤ l.length := by simp at h; omega
    rw [patch, patch_get xs (l.set i x) (i + 1) j (by rw [List.length_set]; omega)]
    simp only [List.length_cons]
    by_cases h1 : j = i
    · subst h1
      rw [if_neg (by omega), if_pos (by omega), List.getElem?_set_self (by omega)]
      simp
    · by_cases h2 : i + 1 ≤ j ∧ j < i + 1 + xs.length
      · rw [if_pos h2, if_pos (by omega)]
        have : j - i = (j - (i + 1)) + 1 := by omega
        rw [this, List.getElem?_cons_succ]
      · rw [if_neg h2, if_neg (by omega), List.getElem?_set_ne (by omega)]

/-- Patching in the middle. -/
theorem patch_append (a b c bs : Bytes) (h : b.length = bs.length) :
    patch (a ++ b ++ c) a.length bs = a ++ bs ++ c := by
  apply List.ext_getElem?
  intro j
  rw [patch_get _ _ _ _ (by simp; omega)]
  split
  · rename_i hj
    rw [List.append_assoc, List.getElem?_append_right hj.1, List.getElem?_append_left (by omega)]
  · rename_i hj
    by_cases h1 : j < a.length
    · rw [List.append_assoc, List.append_assoc, List.getElem?_append_left h1, List.getElem?_append_left h1]
    · rw [List.getElem?_append_right (by simp; omega), List.getElem?_append_right (by simp; omega)]
      simp [h]

end Yarql
