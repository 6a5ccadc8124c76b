import Verif.Spec.Binding

/-! # The integer conversions of `Model/Bind.lean` against `Spec/Binding.lean` -/

namespace Yarql
namespace Binding
open Doc Http Yarql.Bind

theorem isDigit_iff (b : Byte) : Time.isDigit b = true ↔ c%'0' ≤ b ∧ b ≤ c%'9' := by
  unfold Time.isDigit
  simp

theorem atoi_iff (ds : Bytes) (acc n : Nat) :
    Time.atoiDigits ds acc = some n ↔ Digits ds ∧ ds.foldl (fun a b => a * 10 + (b.toNat - 48)) acc = n := by
  induction ds generalizing acc with
  | nil => simp [Time.atoiDigits, Digits]
  | cons b r ih =>
    unfold Time.atoiDigits
    by_cases h : Time.isDigit b = true
    · rw [if_pos h, ih]
      have := (isDigit_iff b).1 h
      simp only [Digits, List.mem_cons, forall_eq_or_imp, List.foldl_cons, Time.digitVal]
      constructor
      · rintro ⟨a, b⟩; exact ⟨⟨this, a⟩, b⟩
      · rintro ⟨⟨_, a⟩, b⟩; exact ⟨a, b⟩
    · rw [if_neg h]
      constructor
      · intro h; cases h
      · rintro ⟨h1, _⟩
        exact absurd ((isDigit_iff b).2 (h1 b List.mem_cons_self)) h

theorem digitsVal_iff (ds : Bytes) (n : Nat) : digitsVal ds = some n ↔ NatText ds n := by
  unfold digitsVal NatText
  by_cases h : ds = []
  · simp [h]
  · rw [if_neg h, atoi_iff]
    exact ⟨fun ⟨a, b⟩ => ⟨h, a, b⟩, fun ⟨_, a, b⟩ => ⟨a, b⟩⟩

theorem natText_digit {c : Byte} {r : Bytes} {n : Nat} (h : NatText (c :: r) n) : c ≠ c%'-' ∧ c ≠ c%'+' := by
  have := h.2.1 c List.mem_cons_self
  constructor <;> (rintro rfl; revert this; decide)

theorem natText_unique {d : Bytes} {n m : Nat} (h : NatText d n) (h' : NatText d m) : n = m := h.2.2.symm.trans h'.2.2

theorem intText_unique {d : Bytes} {i j : Int} (h : IntText d i) (h' : IntText d j) : i = j := by
  obtain ⟨ds, n, hn, h⟩ := h
  obtain ⟨ds', n', hn', h'⟩ := h'
  rcases h with ⟨rfl, rfl⟩ | ⟨rfl, rfl⟩ | ⟨rfl, rfl⟩ <;> rcases h' with ⟨e, rfl⟩ | ⟨e, rfl⟩ | ⟨e, rfl⟩
  all_goals first
    | (subst e; first
        | rw [natText_unique hn hn']
        | exact absurd rfl (natText_digit hn).1
        | exact absurd rfl (natText_digit hn).2
        | exact absurd rfl (natText_digit hn').1
        | exact absurd rfl (natText_digit hn').2)
    | (injection e with e1 e2; first
        | exact absurd e1 (by decide)
        | (subst e2; rw [natText_unique hn hn']))

theorem parseUint64_iff (s : Bytes) (n : Nat) : parseUint64 s = some n ↔ NatText s n ∧ n < 2 ^ 64 := by
  unfold parseUint64
  cases h : digitsVal s with
  | none =>
    simp only [Option.bind_none]
    constructor
    · intro h; cases h
    · rintro ⟨h1, _⟩
      rw [(digitsVal_iff s n).2 h1] at h
      cases h
  | some m =>
    have hm := (digitsVal_iff s m).1 h
    simp only [Option.bind_some]
    by_cases hl : m < 2 ^ 64
    · rw [if_pos hl]
      constructor
      · intro e; cases e; exact ⟨hm, hl⟩
      · rintro ⟨h1, _⟩; rw [natText_unique h1 hm]
    · rw [if_neg hl]
      constructor
      · intro h; cases h
      · rintro ⟨h1, h2⟩
        rw [natText_unique h1 hm] at h2
        exact absurd h2 hl

theorem parseInt64_iff (s : Bytes) (i : Int) : parseInt64 s = some i ↔ IntText s i ∧ InRange .w64 i := by
  have hr : ∀ i : Int, InRange .w64 i ↔ -(2 ^ 63 : Int) ≤ i ∧ i < 2 ^ 63 := fun i => Iff.rfl
  have bnd : ∀ (ds : Bytes) (p : Nat → Prop) [DecidablePred p] (f : Nat → Int),
      (digitsVal ds).bind (fun n => if p n then some (f n) else none) = some i ↔ ∃ n, NatText ds n ∧ p n ∧ f n = i := by
    intro ds p _ f
    cases h : digitsVal ds with
    | none =>
      constructor
      · intro h; cases h
      · rintro ⟨n, h1, _⟩
        rw [(digitsVal_iff ds n).2 h1] at h
        cases h
    | some m =>
      have hm := (digitsVal_iff ds m).1 h
      simp only [Option.bind_some]
      by_cases hp : p m
      · rw [if_pos hp]
        constructor
        · intro e; cases e; exact ⟨m, hm, hp, rfl⟩
        · rintro ⟨n, h1, _, h3⟩; rw [← natText_unique h1 hm, h3]
      · rw [if_neg hp]
        constructor
        · intro h; cases h
        · rintro ⟨n, h1, h2, _⟩
          rw [natText_unique h1 hm] at h2
          exact absurd h2 hp
  rw [hr]
  unfold parseInt64
  cases s with
  | nil =>
    constructor
    · intro h; cases h
    · rintro ⟨⟨ds, n, hn, h⟩, _⟩
      rcases h with ⟨rfl, _⟩ | ⟨h, _⟩ | ⟨h, _⟩
      · exact absurd rfl hn.1
      · cases h
      · cases h
  | cons c r =>
    dsimp only
    by_cases h1 : c = c%'-'
    · subst h1
      rw [if_pos rfl, bnd]
      constructor
      · rintro ⟨n, h1, h2, rfl⟩
        exact ⟨⟨r, n, h1, Or.inr (Or.inr ⟨rfl, rfl⟩)⟩, by omega, by omega⟩
      · rintro ⟨⟨ds, n, hn, h⟩, h3, h4⟩
        rcases h with ⟨rfl, _⟩ | ⟨h, _⟩ | ⟨h, h5⟩
        · exact absurd rfl (natText_digit hn).1
        · injection h with h _; exact absurd h (by decide)
        · injection h with _ h; subst h
          exact ⟨n, hn, by omega, h5.symm⟩
    · rw [if_neg h1]
      by_cases h2 : c = c%'+'
      · subst h2
        rw [if_pos rfl, bnd]
        constructor
        · rintro ⟨n, h1, h2, rfl⟩
          exact ⟨⟨r, n, h1, Or.inr (Or.inl ⟨rfl, rfl⟩)⟩, by omega, by omega⟩
        · rintro ⟨⟨ds, n, hn, h⟩, h3, h4⟩
          rcases h with ⟨rfl, _⟩ | ⟨h, h5⟩ | ⟨h, _⟩
          · exact absurd rfl (natText_digit hn).2
          · injection h with _ h; subst h
            exact ⟨n, hn, by omega, h5.symm⟩
          · injection h with h _; exact absurd h (by decide)
      · rw [if_neg h2, bnd]
        constructor
        · rintro ⟨n, h1, h2, rfl⟩
          exact ⟨⟨_, n, h1, Or.inl ⟨rfl, rfl⟩⟩, by omega, by omega⟩
        · rintro ⟨⟨ds, n, hn, h⟩, h3, h4⟩
          rcases h with ⟨rfl, h5⟩ | ⟨h, _⟩ | ⟨h, _⟩
          · exact ⟨n, hn, by omega, h5.symm⟩
          · injection h with h _; exact absurd h h2
          · injection h with h _; exact absurd h h1

theorem bits_pow (w : Width) : (2 ^ w.bits : Int) = 2 * 2 ^ (w.bits - 1) ∧ (0 : Int) < 2 ^ (w.bits - 1) := by
  cases w <;> decide

theorem wrapInt_truncates (w : Width) (i : Int) : Truncates w i (wrapInt w i) := by
  obtain ⟨h1, h2⟩ := bits_pow w
  unfold Truncates InRange wrapInt
  dsimp only
  have h3 := Int.emod_nonneg i (b := 2 ^ w.bits) (by omega)
  have h4 := Int.emod_lt_of_pos i (b := 2 ^ w.bits) (by omega)
  have h5 := Int.mul_ediv_add_emod i (2 ^ w.bits)
  by_cases hl : i % 2 ^ w.bits < 2 ^ (w.bits - 1)
  · rw [if_pos hl]
    exact ⟨⟨by omega, hl⟩, ⟨i / 2 ^ w.bits, by omega⟩⟩
  · rw [if_neg hl]
    refine ⟨⟨by omega, by omega⟩, ⟨i / 2 ^ w.bits + 1, ?_⟩⟩
    rw [Int.mul_add]
    omega

theorem truncates_unique {w : Width} {i j k : Int} (h : Truncates w i j) (h' : Truncates w i k) : j = k := by
  obtain ⟨⟨a1, a2⟩, ⟨x, a3⟩⟩ := h
  obtain ⟨⟨b1, b2⟩, ⟨y, b3⟩⟩ := h'
  cases w <;> (simp only [Width.bits] at *; omega)

theorem wrapInt_eq (w : Width) (i : Int) : wrapInt w i = i ↔ InRange w i := by
  constructor
  · intro h
    rw [← h]
    exact (wrapInt_truncates w i).1
  · intro h
    exact truncates_unique (wrapInt_truncates w i) ⟨h, ⟨0, by omega⟩⟩

theorem wrapInt_iff (w : Width) (i j : Int) : wrapInt w i = j ↔ Truncates w i j :=
  ⟨fun h => h ▸ wrapInt_truncates w i, fun h => truncates_unique (wrapInt_truncates w i) h⟩

theorem wrapUint_iff (w : Width) (n m : Nat) : wrapUint w n = m ↔ UTruncates w n m := by
  unfold wrapUint UTruncates InURange
  constructor
  · rintro rfl
    refine ⟨Nat.mod_lt _ (Nat.two_pow_pos _), ⟨(n / 2 ^ w.bits : Nat), ?_⟩⟩
    have := Nat.div_add_mod n (2 ^ w.bits)
    have h2 : (n : Int) = ((2 ^ w.bits * (n / 2 ^ w.bits) + n % 2 ^ w.bits : Nat) : Int) := by rw [this]
    rw [Int.natCast_add, Int.natCast_mul] at h2
    rw [show ((2 : Int) ^ w.bits) = ((2 ^ w.bits : Nat) : Int) by cases w <;> rfl]
    omega
  · rintro ⟨h1, ⟨x, h2⟩⟩
    cases w <;> (simp only [Width.bits] at *; omega)

theorem wrapUint_eq (w : Width) (n : Nat) : wrapUint w n = n ↔ InURange w n := by
  rw [wrapUint_iff]
  unfold UTruncates
  exact ⟨fun h => h.1, fun h => ⟨h, ⟨0, by omega⟩⟩⟩

theorem inRange_w64 {w : Width} {i : Int} (h : InRange w i) : InRange .w64 i := by
  unfold InRange at *
  cases w <;> (simp only [Width.bits] at *; omega)

theorem inURange_w64 {w : Width} {n : Nat} (h : InURange w n) : n < 2 ^ 64 := by
  unfold InURange at *
  cases w <;> (simp only [Width.bits] at *; omega)

end Binding
end Yarql
