import Verif.Proofs.JsonString
import Verif.Proofs.Bytes
import Verif.Model.Parser

/-!
# C13 (JSON string encoding) and C45 (32-bit lengths in the bytecode)
-/

namespace Yarql

open Json Utf8

/-- **C13** For every Go string `s` (arbitrary bytes) and every output buffer `e`, `StringToJSON` appends exactly one
well-formed JSON string literal, and that literal denotes exactly the code points of `s` (invalid bytes read
as U+FFFD): it denotes that sequence and no other. -/
theorem C13_json_string (s e : Bytes) :
    ∃ lit cs, JsonString.stringToJSON s e = e ++ lit ∧ Reads s cs ∧ JString lit cs ∧
      (∀ ds, JString lit ds → ds = cs) ∧ (∀ ds, Reads s ds → ds = cs) := by
  obtain ⟨tail, cs, h1, h2, h3⟩ := JsonString.loop_correct s (s.length + 1) 0 0 (e ++ [c%'"'])
    (Nat.le_refl _) (Nat.zero_le _) (by omega)
  refine ⟨c%'"' :: tail ++ [c%'"'], cs, ?_, h3, ⟨tail, rfl, h2⟩, ?_, ?_⟩
  · unfold JsonString.stringToJSON
    rw [h1]
    simp
  · rintro ds ⟨body, hb, hj⟩
    simp only [List.cons_append, List.cons.injEq, true_and, List.append_cancel_right_eq] at hb
    subst hb
    exact JsonString.jchars_unique hj h2
  · exact fun ds hd => JsonString.reads_unique hd h3

/-- Non-trivial input: quotes, control bytes, `~`, a valid two-byte character, a lone continuation byte,
U+2028. -/
example : JsonString.stringToJSON [34, 0, 126, 0xC3, 0xA9, 0x80, 0xE2, 0x80, 0xA8] [] =
    b%"\"\\\"\\u0000\\u007e" ++ [0xC3, 0xA9] ++ b%"\\ufffd\\u2028\"" := by decide +kernel

/-- **C45** A 32-bit length written at position `i` of the bytecode is read back unchanged, the bytecode keeps its
length, and no byte outside `[i, i+4)` changes; the write fails (Go panic) exactly when it does not fit. -/
theorem C45_uint32_round_trip (cfg : Parser.PCfg) (s : Parser.PS) (v : UInt32) (i : Nat) :
    (i + 4 ≤ s.res.length → ∃ s', Parser.writeUint32 v i cfg s = .ok () s' ∧
      readUint32 s'.res i = some v ∧ s'.res.length = s.res.length ∧
      (∀ j, j < i ∨ i + 4 ≤ j → s'.res[j]? = s.res[j]?) ∧
      s' = { s with res := s'.res }) ∧
    (s.res.length < i + 4 → Parser.writeUint32 v i cfg s = .panic) := by
  constructor
  · intro h
    refine ⟨{ s with res := patch s.res i (le32 v) }, ?_, ?_, patch_length _ _ _, ?_, rfl⟩
    · unfold Parser.writeUint32
      rw [if_pos (by omega)]
    · have hs : s.res = s.res.take i ++ (s.res.drop i).take 4 ++ s.res.drop (i + 4) := by
        rw [List.append_assoc, ← List.drop_drop, List.take_append_drop, List.take_append_drop]
      have hl : (s.res.take i).length = i := by rw [List.length_take]; omega
      have hp : patch s.res i (le32 v) = s.res.take i ++ le32 v ++ s.res.drop (i + 4) := by
        have := patch_append (s.res.take i) ((s.res.drop i).take 4) (s.res.drop (i + 4)) (le32 v)
          (by rw [le32_length, List.length_take, List.length_drop]; omega)
        rw [hl, ← hs] at this
        exact this
      unfold readUint32
      simp only
      rw [hp, le32_eq]
      rw [List.take_append_of_le_length (by simp [hl])]
      rw [List.take_of_length_le (by simp [hl]), List.drop_append_of_le_length (by omega),
        List.drop_of_length_le (by omega)]
      simp only [List.nil_append]
      rw [rd32_le32]
    · intro j hj
      simp only
      rw [patch_get _ _ _ _ (by rw [le32_length]; omega), if_neg (by rw [le32_length]; omega)]
  · intro h
    unfold Parser.writeUint32
    rw [if_neg (by omega)]

example : ∃ s', Parser.writeUint32 0xDEADBEEF 1 ⟨[], none⟩ ⟨[1, 2, 3, 4, 5, 6], [], 0, [], none⟩ = .ok () s' ∧
    s'.res = [1, 0xEF, 0xBE, 0xAD, 0xDE, 6] := ⟨_, rfl, by decide⟩

end Yarql
