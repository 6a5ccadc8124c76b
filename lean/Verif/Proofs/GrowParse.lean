import Verif.Proofs.TypeWalkLink
import Verif.Spec.Grow

/-!
# A schema that `Parse` returned mentions nothing that is not in it
-/

namespace Yarql
namespace TypeWalk
open GoTypes Naming Typed Resolver

variable {F V W : Type}

section
variable {prog : Program F} {env : Env F V W} {schema : RSchema F V} {s : St} {i : InSt} {ms : List (List (BaseInput F) × List ArgField)}

theorem declared_stands (hen : schema.enums = prog.enums)
    (hty : ∀ n e, lookup s.types n = some e → ∃ t, lookup schema.types n = some t)
    (hif : ∀ n e, lookup s.interfaces n = some e → lookup schema.interfaces n = some e.impls)
    (hi : ∀ n e, lookup s.interfaces n = some e → IEntryOf prog s e)
    {t : Ty} {id : Bool} {x : WObj} (h : Stands prog s t id x) : Grow.Declared schema env (finObj ms x) := by
  induction h with
  | time a => trivial
  | struct a b c d => exact hty _ _ b
  | iface a b c l e =>
    refine ⟨_, hif _ _ l, ?_⟩
    obtain ⟨_, us, _, him, _⟩ := hi _ _ l
    intro k hk
    obtain ⟨u, _, _, hst⟩ := him k hk
    generalize he : WObj.objRef k.typeName k.goTypeName k.goPkgPath = o at hst
    cases hst with
    | struct a b c d => injection he with h0 _ _; rw [h0]; exact hty _ _ b
    | _ => cases he
  | array a b _ ih => exact ih
  | slice a b _ ih => exact ih
  | ptr a b _ ih => exact ih
  | enum a b c =>
    show _ < _
    unfold enumIndex at c
    rw [b] at c; dsimp only at c
    split at c
    · cases c
    · rw [hen]
      exact (List.findIdx?_eq_some_iff_getElem.1 c).1
  | data a b c d => trivial

theorem declared_func (hst : ∀ {t : Ty} {id : Bool} {x : WObj}, Stands prog s t id x → Grow.Declared schema env (finObj ms x))
    (hkn : ∀ {t id x}, StandsIn prog i t id x → Known schema env x)
    (hm : ∀ (j : Nat) r, s.methods[j]? = some r → ∃ x, ms[j]? = some x ∧ ParamsOf prog i (paramTypes r.sig r.isTypeMethod) x.1 x.2)
    {nm : Bytes} {sig : Sig} {b tag : Bool} {x : WObj} (h : FuncOf prog s nm sig b tag x) : Grow.Declared schema env (finObj ms x) := by
  obtain ⟨idx, outNr, en, out, ty, id, rfl, h2, _, h4, _⟩ := h
  obtain ⟨r, hr, hp⟩ := hm _ _ h2
  simp only [finObj, hr]
  refine ⟨?_, hst h4⟩
  intro a ha
  obtain ⟨t, fs, _, _, _, gf, id, _, _, _, hst⟩ := hp.sound a ha
  exact hkn hst

end

theorem found_closed {prog : Program F} {env : Env F V W} {d : Decl V} {schema : Schema F V}
    (hff : env.formFile.isSome = true) (fd : Found prog d schema) : Grow.Closed (viewSchema schema) env := by
  obtain ⟨q, m, inj, s, ms, i, dirs, htypes, hifaces, hin, hmeth, hdirs, ⟨eq, lq, sq⟩, ⟨em, lm, sm⟩, hinj, heq⟩ := fd
  unfold assemble at heq
  rw [lq, lm] at heq
  dsimp only at heq
  injection heq with heq
  have hen : (viewSchema schema).enums = prog.enums := by rw [← heq]; rfl
  have hlin : ∀ n, lookup (viewSchema schema).inTypes n = (lookup i.inTypes n).map (fun e => ⟨e.fields, prog.zero e.src⟩) := by
    intro n
    rw [← heq]
    exact lookup_map (fun _ e => (⟨e.fields, prog.zero e.src⟩ : InStruct F)) i.inTypes n
  have hkn : ∀ {t id x}, StandsIn prog i t id x → Known (viewSchema schema) env x := fun h =>
    known_of hen (fun n e l => (by rw [hlin, l]; rfl)) hff h
  have hlty : ∀ n, lookup (viewSchema schema).types n = (lookup s.types n).map (fun e => viewType (finalType d q inj ms n e)) := by
    intro n
    rw [← heq]
    refine (lookup_map (fun _ => viewType) (s.types.map (fun e => (e.1, finalType d q inj ms e.1 e.2))) n).trans ?_
    rw [lookup_map (finalType d q inj ms), Option.map_map]; rfl
  have hlif : ∀ n e, lookup s.interfaces n = some e → lookup (viewSchema schema).interfaces n = some e.impls := by
    intro n e l
    rw [← heq]
    refine (lookup_map (fun _ (e : IfaceDef F V) => e.implementations) (s.interfaces.map (fun e => (e.1, finIface ms e.1 e.2))) _).trans ?_
    rw [lookup_map (finIface ms), l]; rfl
  have hst : ∀ {t : Ty} {id : Bool} {x : WObj}, Stands prog s t id x → Grow.Declared (viewSchema schema) env (finObj ms x) := fun h =>
    declared_stands hen (fun n e l => ⟨_, by rw [hlty, l]; rfl⟩) hlif hifaces h
  have hfn : ∀ {nm : Bytes} {sig : Sig} {b tag : Bool} {x : WObj}, FuncOf prog s nm sig b tag x →
      Grow.Declared (viewSchema schema) env (finObj ms x) := fun h => declared_func hst hkn hmeth h
  have hfields : ∀ n e, lookup s.types n = some e → ∀ f ∈ (viewType (finalType d q inj ms n e)).fields,
      Grow.Declared (viewSchema schema) env f.obj := by
    intro n e l f hf
    obtain ⟨_, he⟩ := htypes n e l
    have plain : ∀ g ∈ e.fields.map (finField (V := V) ms), Grow.Declared (viewSchema schema) env (viewField g).obj := by
      intro g hg
      obtain ⟨f, hf, rfl⟩ := List.mem_map.1 hg
      show Grow.Declared _ _ (finObj ms f.obj)
      cases (he.1.sound f hf).2 with
      | plain a b c d e' g => exact hst g
      | func a b c d e' g => exact hfn g
      | method a b c => exact hfn c
    obtain ⟨g, hg, rfl⟩ := List.mem_map.1 hf
    rcases finalType_cases d q inj ms n e with ht | ⟨o, fo, x, hi, hx, ht⟩
    · rw [ht] at hg; exact plain g hg
    · rw [ht] at hg
      obtain ⟨x', hx', hso, hfo⟩ := hinj o fo hi
      rcases List.mem_cons.1 hg with rfl | hg
      · exact hfn hfo
      · have hg := (List.mem_filter.1 hg).1
        rcases List.mem_cons.1 hg with rfl | hg
        · exact hst hso
        · exact plain g (List.mem_filter.1 hg).1
  refine ⟨?_, ?_, ?_⟩
  · rintro t (rfl | rfl | ⟨n, l⟩) f hf
    · have : (viewSchema schema).rootQuery = viewType (finalType d q inj ms q eq) := by rw [← heq]; rfl
      rw [this] at hf; exact hfields _ _ lq f hf
    · have : (viewSchema schema).rootMethod = viewType (finalType d q inj ms m em) := by rw [← heq]; rfl
      rw [this] at hf; exact hfields _ _ lm f hf
    · rw [hlty] at l
      cases hl : lookup s.types n with
      | none => rw [hl] at l; cases l
      | some e => rw [hl] at l; injection l with l; subst l; exact hfields _ _ hl f hf
  · intro n dd l f hf
    rw [hlin] at l
    cases hl : lookup i.inTypes n with
    | none => rw [hl] at l; cases l
    | some e =>
    rw [hl] at l
    simp only [Option.map_some, Option.some.injEq] at l
    subst l
    obtain ⟨_, _, gf, id, _, _, _, h⟩ := (hin n e hl).2.sound f hf
    exact hkn h
  · intro loc name x hx a ha
    unfold Grow.directive at hx
    rw [Option.bind_eq_some_iff] at hx
    obtain ⟨table, hl, hx⟩ := hx
    have hxd : x ∈ dirs := by
      rw [← heq] at hl
      simp only [viewSchema, dirTables] at hl
      unfold lookup at hl
      rw [Option.map_eq_some_iff] at hl
      obtain ⟨p, hp, rfl⟩ := hl
      obtain ⟨l, _, rfl⟩ := List.mem_map.1 (List.mem_of_find?_eq_some hp)
      exact (List.mem_filter.1 (List.mem_of_find?_eq_some hx)).1
    obtain ⟨e, he, _, _, hfn, _, _, _, hp⟩ := hdirs x hxd
    obtain ⟨t, fs, _, _, _, gf, id, _, _, _, hst⟩ := hp.sound a ha
    exact hkn hst

end TypeWalk
end Yarql
