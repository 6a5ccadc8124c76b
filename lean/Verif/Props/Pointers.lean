import Verif.Props.TypeWalk
import Verif.Props.Values

/-!
# C77: what an interface field holds

In Go an interface value holds a struct or a pointer to one; `*T` implements whatever `T` does.  `reflect`'s `Name()` of a pointer type
is the empty string, and the resolver compares that name with the names of the registered structs (resolver.go:895-913).
-/

namespace Yarql
open Doc Resolver Eval Typed TypeWalk GoTypes Reflects

section
variable {F V W : Type}

/-- **C77** (structs): an interface value that holds a struct of a registered type is shown as that struct is. -/
theorem C77_struct_shown_partial (c : Shows.Ctx F V W) (w w' : W) (n : Bytes) (impls : List Impl) (v x : V) (goName goPkg : Bytes) (i : Impl)
    (p : List Seg) (args : Option (List (Bytes × Value))) (sels : List Sel) (out : Out) (hl : lookup c.schema.interfaces n = some impls)
    (hv : c.env.view w v = .iface (some (goName, goPkg, x))) (hi : i ∈ impls) (hn : i.goTypeName = goName ∧ i.goPkgPath = goPkg)
    (hone : ∀ j ∈ impls, j.goTypeName = goName ∧ j.goPkgPath = goPkg → j = i) :
    Shows.Shows c w (.interfaceRef n) v p args sels out w' ↔ args = none ∧ Shows.Shows c w (.objRef i.typeName) x p none sels out w' := by
  have hf : impls.find? (fun i => i.goTypeName = goName ∧ i.goPkgPath = goPkg) = some i := by
    cases h : impls.find? (fun i => decide (i.goTypeName = goName ∧ i.goPkgPath = goPkg)) with
    | none => exact absurd (decide_eq_true hn) (List.find?_eq_none.1 h i hi)
    | some j =>
      have hj := List.find?_some h
      rw [hone j (List.mem_of_find?_eq_some h) (of_decide_eq_true hj)]
  constructor
  · intro h
    cases h with
    | noInterface _ h => rw [hl] at h; cases h
    | nilInterface _ _ h => rw [hv] at h; cases h
    | interface h1 h2 h3 h4 =>
      rw [hl] at h1; cases h1
      rw [hv] at h2; cases h2
      rw [hf] at h3; cases h3
      exact ⟨rfl, h4⟩
    | unregistered _ h1 h2 h3 =>
      rw [hl] at h1; cases h1
      rw [hv] at h2; cases h2
      exact absurd hn (h3 i hi)
  · rintro ⟨rfl, h⟩
    exact .interface hl hv hf h

/-- **C77 refuted** for pointers, whatever the schema: an interface value whose dynamic type has no name is shown as null, and nothing of
it is looked at. -/
theorem C77_refuted_pointer (c : Shows.Ctx F V W) (w w' : W) (n : Bytes) (v x : V) (goPkg : Bytes) (p : List Seg)
    (args : Option (List (Bytes × Value))) (sels : List Sel) (out : Out)
    (hnamed : ∀ impls, lookup c.schema.interfaces n = some impls → ∀ i ∈ impls, i.goTypeName ≠ [])
    (hv : c.env.view w v = .iface (some ([], goPkg, x))) (h : Shows.Shows c w (.interfaceRef n) v p args sels out w') :
    out = .null ∧ w' = w := by
  cases h with
  | noInterface _ h => exact ⟨rfl, rfl⟩
  | nilInterface _ _ h => exact ⟨rfl, rfl⟩
  | interface h1 h2 h3 h4 =>
    rw [hv] at h2; cases h2
    have hj := List.find?_some h3
    have hj := of_decide_eq_true hj
    exact absurd hj.1 (hnamed _ h1 _ (List.mem_of_find?_eq_some h3))
  | unregistered _ h1 h2 h3 => exact ⟨rfl, rfl⟩

/-- **C77**: in what `Parse` returns all implementations have names. -/
theorem C77_named (prog : Program F) (fuel : Nat) (d : Decl V) (schema : Schema F V) (hnc : NoClash prog)
    (h : parse prog fuel d = .ok schema) (n : Bytes) (dd : IfaceDef F V) (hl : lookup schema.interfaces n = some dd) :
    ∀ i ∈ dd.implementations, i.goTypeName ≠ [] := by
  obtain ⟨N, hN⟩ := C48_registered_partial prog fuel d schema hnc h
  have hs := hN.ifaceNames n
  rw [hl] at hs
  cases ht : N.ifaces n with
  | none => rw [ht] at hs; cases hs
  | some t =>
    obtain ⟨-, -, us, -, h1, -⟩ := hN.ifaceDef n t dd ht hl
    intro i hi
    obtain ⟨u, -, e, -, hne, -⟩ := h1 i hi
    rw [← e]
    exact hne

end

/-! ## The same dog, once as a struct, once as a pointer -/

namespace PointerDemo
open Demo

/-- `User{Name: "Ann", Pet: &Dog{"woof"}}` -/
def withPointer : D := .struct [.str b%"Ann", .uint 7, .ptr none, .seq none, .iface (some ([], [], .ptr (some (.struct [.str b%"woof"]))))]

def askPet (root : D) : Option (Bytes × Nat) :=
  match resolve 300 { schema with rootQueryValue := root } env noStack [] (request b%"{pet{sound}}") with
  | .ok (b, es) _ => some (b, es.length)
  | _ => none

/-- the struct is shown -/
example : askPet ann = some (dataOnly b%"{\"pet\":{\"sound\":\"woof\"}}", 0) := by decide +kernel

/-- **C77 refuted** by a request: null, and no error -/
theorem C77_refuted : askPet withPointer = some (dataOnly b%"{\"pet\":null}", 0) := by decide +kernel

end PointerDemo
end Yarql
