import Verif.Proofs.TypeWalkTermIn
import Verif.Proofs.TypeWalkMirror
import Verif.Spec.GoDemo
import Verif.Props.WellFormed
import Verif.Props.Terminates

/-!
# From Go types to a schema: C48 (registration), C56 (what is exposed), C57 (an accepted program is served), C58 (enums)
-/

namespace Yarql
open TypeWalk GoTypes Reflects Naming Resolver Typed Eval
open Doc (Def Operation)

section
variable {F V W : Type}

/-! ## C48 -/

/-- **C48** (registration of output types). If no two types claim one name in a way `Parse` overlooks (`NoClash`), a schema that `Parse`
returns has exactly one object type per reachable struct and one interface per reachable interface, under its (renamed) name,
with exactly the exposed fields and methods, typed by what stands for their Go types. Missing: programs with a clash, see the
refutations below. -/
theorem C48_registered_partial (prog : Program F) (fuel : Nat) (d : Decl V) (schema : Schema F V) (hnc : NoClash prog)
    (h : parse prog fuel d = .ok schema) : ∃ N, Mirrors prog N (fun _ _ => True) d schema := by
  obtain ⟨q, m, inj, s, ms, i, dirs, i', hw, ha, hdi, heq⟩ := parse_steps h
  refine ⟨namesOf s i', mirrors_of hnc hw ?_ heq⟩
  intro j r hj
  have hlen := allIns_length _ _ _ _ _ ha
  have hlt : j < ms.length := by
    rw [hlen]
    simpa using (List.getElem?_eq_some_iff.1 hj).1
  exact ⟨ms[j], List.getElem?_eq_getElem hlt, fun _ _ => trivial⟩

/-- **C48** (inputs too). If different Go types have different names, the arguments of every function of the schema are the exposed fields
of its parameter structs as well, and every input type mirrors its Go struct. -/
theorem C48_inputs_partial (prog : Program F) (fuel : Nat) (d : Decl V) (schema : Schema F V) (hd : Distinct prog)
    (h : parse prog fuel d = .ok schema) : ∃ N, Mirrors prog N (fun tys m => Params prog N tys m.ins m.inFields) d schema ∧
      MirrorsInputs prog N d schema := by
  obtain ⟨q, m, inj, s, ms, i, dirs, i', hw, ha, hdi, heq⟩ := parse_steps h
  obtain ⟨h1, h2⟩ := mirrorsInputs_of hd ha hdi heq
  exact ⟨namesOf s i', mirrors_of hd.noClash hw h2 heq, h1⟩

/-- **C48** (same names). `Parse` returns no schema if two reachable struct types of different packages get one name. -/
theorem C48_rejects_partial (prog : Program F) (fuel : Nat) (d : Decl V) (schema : Schema F V) (hnc : NoClash prog) (t u : Ty) (ft fu : List GoField)
    (ht : Reach prog d t) (hu : Reach prog d u) (hst : IsStruct prog t ft) (hsu : IsStruct prog u fu) (hnt : (prog.get t).name ≠ [])
    (hnu : (prog.get u).name ≠ []) (hn : qlName prog (prog.get t).name = qlName prog (prog.get u).name) (hne : t ≠ u) :
    parse prog fuel d ≠ .ok schema := by
  intro h
  obtain ⟨N, hN⟩ := C48_registered_partial prog fuel d schema hnc h
  have key : ∀ t ft, Reach prog d t → IsStruct prog t ft → (prog.get t).name ≠ [] → N.types (qlName prog (prog.get t).name) = some t := by
    intro t ft hr hs hn
    obtain ⟨n, hn'⟩ := hN.typesAll t ft hr hs
    rcases hN.typeName n t hn' with ⟨_, e⟩ | ⟨e, _⟩
    · rw [← e]; exact hn'
    · exact absurd e hn
  have h1 := key t ft ht hst hnt
  have h2 := key u fu hu hsu hnu
  rw [hn, h2] at h1
  injection h1 with h1
  exact hne h1.symm

/-- **C48** (termination). If there are finitely many type names and every cycle of types passes through a named struct or an interface,
`Parse` returns, and with the same outcome however much longer one waits. -/
theorem C48_returns_partial (prog : Program F) (d : Decl V) (names : List Bytes) (rank : Ty → Nat) (K : Nat) (hG : Grounded prog names rank K) :
    ∃ fuel r, r ≠ .oof ∧ ∀ k, parse prog (fuel + k) d = r := by
  have h := parse_ret hG (B := (univI names).length * (K + 1) + (K + 1)) (Nat.le_refl _) d
  exact ⟨_, _, h, parse_more h⟩

/-- The outcome does not depend on how long one waits for it. -/
theorem C48_outcome (prog : Program F) (d : Decl V) (n m : Nat) (hn : parse prog n d ≠ .oof) (hm : parse prog m d ≠ .oof) :
    parse prog n d = parse prog m d := by
  have h1 := parse_more hn m
  have h2 := parse_more hm n
  rw [Nat.add_comm m n] at h2
  rw [← h1, h2]

/-- **C48** (the types with a meaning of their own). The specification's words for them: `time.Time` is the type of that name in that
package, so are the `id` marker, the context and the uploaded file; what may be an id are the strings and the whole numbers. -/
theorem C48_markers (g : GoType) (k : Kind) :
    (isTime g = true ↔ g.pkg = b%"time" ∧ g.name = b%"Time") ∧
    (isAttrID g = true ↔ g.pkg = b%"github.com/mjarkk/yarql" ∧ g.name = b%"AttrIsID") ∧
    (isCtx g = true ↔ g.pkg = b%"github.com/mjarkk/yarql" ∧ g.name = b%"Ctx" ∧ ∃ fs, g.shape = .struct fs) ∧
    (isFileHeader g = true ↔ g.pkg = b%"mime/multipart" ∧ g.name = b%"FileHeader") ∧
    (validIDKind k = true ↔ k = .string ∨ (∃ n, k = .int n) ∨ ∃ n, k = .uint n) ∧
    (validEnumKind k = true ↔ k = .string ∨ (∃ n, k = .int n) ∨ ∃ n, k = .uint n) := by
  have hs : isStruct g = true ↔ ∃ fs, g.shape = .struct fs := by
    unfold isStruct
    cases g.shape <;> simp
  refine ⟨by simp [isTime], ?_, ?_, by simp [isFileHeader, and_comm], ?_, ?_⟩
  · unfold isAttrID
    rw [Bool.and_eq_true]
    exact ⟨fun ⟨a, b⟩ => ⟨of_decide_eq_true b, of_decide_eq_true a⟩, fun ⟨b, a⟩ => ⟨decide_eq_true a, decide_eq_true b⟩⟩
  · unfold isCtx
    rw [Bool.and_eq_true, Bool.and_eq_true, hs]
    exact ⟨fun ⟨⟨a, b⟩, c⟩ => ⟨of_decide_eq_true c, of_decide_eq_true b, a⟩, fun ⟨c, b, a⟩ => ⟨⟨a, decide_eq_true b⟩, decide_eq_true c⟩⟩
  · cases k <;> simp [validIDKind]
  · cases k <;> simp [validEnumKind]

/-! ## C56 -/

/-- **C56** (hidden fields stay hidden). Every field of an object type of the schema that is not one the introspection adds comes from an
exported method, or from a Go field that is neither embedded nor tagged `gq:"-"`. Missing: unexported Go fields are not left
out, see below. -/
theorem C56_exposed_partial (prog : Program F) (fuel : Nat) (d : Decl V) (schema : Schema F V) (hnc : NoClash prog)
    (h : parse prog fuel d = .ok schema) (n : Bytes) (td : TypeDef F V) (f : Field F V) (hl : lookup schema.types n = some td)
    (hf : f ∈ td.fields) (hh : f.hidden = false) :
    ∃ t, Reach prog d t ∧ (prog.get t).name = td.goTypeName ∧ (prog.get t).pkg = td.goPkgPath ∧
      ((∃ fs gf, IsStruct prog t fs ∧ fs[f.structFieldIdx]? = some gf ∧ gf.embedded = false ∧
        (∀ tag, gf.tag = some tag → trimSpace ((splitComma tag).headD []) ≠ b%"-") ∧
        ∃ id, fieldName gf.name gf.tag = .named f.qlFieldName id) ∨
       ∃ nm sig, (prog.get t).methods[f.structFieldIdx]? = some (nm, sig) ∧ b%"Resolve" <+: nm ∧ methodName nm = .exposed f.qlFieldName) := by
  obtain ⟨N, hN⟩ := C48_registered_partial prog fuel d schema hnc h
  have hsome : (N.types n).isSome = true := by rw [hN.typeNames, hl]; rfl
  obtain ⟨t, ht⟩ := Option.isSome_iff_exists.1 hsome
  obtain ⟨_, h2, h3, hF, _⟩ := hN.typeDef n t td ht hl
  refine ⟨t, (hN.typeReached n t ht).1, h2.symm, h3.symm, ?_⟩
  have htag : ∀ (gf : GoField) id, fieldName gf.name gf.tag = .named f.qlFieldName id → ∀ tag, gf.tag = some tag →
      trimSpace ((splitComma tag).headD []) ≠ b%"-" := by
    intro gf id hfn tag htg hm
    unfold fieldName at hfn
    rw [htg] at hfn
    unfold parseFieldTagGQ at hfn
    dsimp only at hfn
    by_cases he : tag = []
    · subst he
      exact absurd hm (by decide)
    rw [if_neg he] at hfn
    cases hs : splitComma tag with
    | nil => rw [hs] at hm; exact absurd hm (by decide)
    | cons a mods =>
      rw [hs] at hfn hm
      dsimp only at hfn
      change trimSpace a = _ at hm
      rw [if_pos hm] at hfn
      cases hfn
  rcases hF.sound f hf with ⟨h', _⟩ | ⟨_, _, hfo⟩
  · rw [hh] at h'; cases h'
  · cases hfo with
    | plain a b c e g => exact .inl ⟨_, _, a, b, c, htag _ _ e, _, e⟩
    | func a b c e g => exact .inl ⟨_, _, a, b, c, htag _ _ e, _, e⟩
    | @method nm _ a b c =>
      refine .inr ⟨_, _, a, ?_, b⟩
      unfold methodName at b
      by_cases hp : b%"Resolve" <+: nm
      · exact hp
      · rw [if_neg hp] at b; cases b

/-! ## C57 -/

/-- **C57.** A program that `Parse` accepts is well typed for the resolver: if different Go types have different names, values have the Go
types the program declares and functions return, then every value the resolver can get at has the shape its schema type promises. -/
theorem C57_accepted_welltyped_partial (prog : Program F) (env : Env F V W) (HasTy : V → Ty → Prop) (fuel : Nat) (d : Decl V)
    (schema : Schema F V) (hd : Distinct prog) (hid : Identified prog) (hek : EnumKinds prog) (hgo : GoLike prog env HasTy)
    (hroots : RootsTyped env HasTy d) (hff : env.formFile.isSome = true) (h : parse prog fuel d = .ok schema) :
    ∃ T, WellTyped (viewSchema schema) env T := by
  obtain ⟨fd⟩ := parse_found hd h
  exact ⟨_, found_wellTyped hid hek hgo hroots hff fd⟩

/-- **C57** (requests). A request that fits on the value stack is answered by a schema that `Parse` made: no panic, no endless loop. -/
theorem C57_accepted_answers_partial [DecidableEq F] (prog : Program F) (env : Env F V W) (HasTy : V → Ty → Prop) (fuel : Nat) (d : Decl V)
    (schema : Schema F V) (hd : Distinct prog) (hid : Identified prog) (hek : EnumKinds prog) (hgo : GoLike prog env HasTy)
    (hroots : RootsTyped env HasTy d) (hff : env.formFile.isSome = true) (h : parse prog fuel d = .ok schema)
    (w : W) (req : Request) (doc : List Def) (o : Operation) (hs : Serves req doc o) (hf : Fits (viewSchema schema) (fragmentsOf doc) o) :
    ∃ body es w', Answers (viewSchema schema) env w req (.ok (body, es) w') := by
  obtain ⟨T, hT⟩ := C57_accepted_welltyped_partial prog env HasTy fuel d schema hd hid hek hgo hroots hff h
  exact C19_answered_partial (viewSchema schema) env T w req doc o hs hT hf

end

/-! ## The hypotheses can be met -/

open GoDemo Demo

/-- the object types and their fields, with the index of the Go field or method -/
example : goSchema.types.map (fun e => (e.1, e.2.fields.map (fun f => (f.qlFieldName, f.structFieldIdx)))) =
    [(b%"M", []), (b%"User", [(b%"both", 1), (b%"add", 0), (b%"pet", 4), (b%"scores", 3), (b%"friend", 2), (b%"age", 1), (b%"name", 0)]),
      (b%"Dog", [(b%"sound", 0)])] := by decide +kernel

example : ∃ N, Mirrors GoDemo.prog N (fun tys m => Params GoDemo.prog N tys m.ins m.inFields) decl goSchema ∧
    MirrorsInputs GoDemo.prog N decl goSchema := C48_inputs_partial _ _ _ _ GoDemo.distinct parse_ok

example : ∃ fuel r, r ≠ TypeWalk.Parsed.oof ∧ ∀ k, parse GoDemo.prog (fuel + k) decl = r := C48_returns_partial _ _ _ _ _ GoDemo.grounded

example : ∃ T, WellTyped (viewSchema goSchema) GoDemo.env T :=
  C57_accepted_welltyped_partial _ _ _ _ _ _ GoDemo.distinct GoDemo.identified GoDemo.enumKinds GoDemo.goLike GoDemo.rootsTyped rfl parse_ok

/-! ## Types that `Parse` does not get through -/

namespace Recursive

/-- `type Q struct { A A }; type A []A` -/
def prog : Program Unit where
  get := fun t => if t = 0 then ⟨b%"Q", b%"main", .struct [fld b%"A" 1], []⟩ else ⟨b%"A", b%"main", .slice 1, []⟩
  implements := fun _ _ => false
  isError := fun _ => false
  zero := fun _ => .scalar (.bool false)
  renamed := fun _ => none
  implMap := fun _ => none
  structImpl := fun _ => []
  enums := []

theorem loops (fuel : Nat) (id : Bool) (s : St) : check prog fuel 1 id s = .oof := by
  induction fuel generalizing id s with
  | zero => rfl
  | succ n ih =>
    have h : check prog (n + 1) 1 id = (check prog n 1 false >>= fun o => pure (.array o)) := rfl
    rw [h]
    change TypeWalk.M.bind _ _ s = _
    unfold TypeWalk.M.bind
    rw [ih]

end Recursive

/-- **C48, refuted** in general: with `type A []A` behind a field of the query, `Parse` never returns. -/
theorem C48_refuted_recursive_slice (fuel : Nat) (d : Decl D) (hq : d.queries = 0) : parse Recursive.prog fuel d = .oof := by
  have hc : check Recursive.prog fuel 0 false ⟨[], [], 0, []⟩ = .oof := by
    cases fuel with
    | zero => rfl
    | succ n =>
      have hl := Recursive.loops n false
      change checkBody Recursive.prog (check Recursive.prog n) 0 false _ = _
      generalize check Recursive.prog n = chk at hl
      have hw : ∀ s, walkFields Recursive.prog chk 0 [fld b%"A" 1] [] s = .oof := by
        intro s
        rw [walkFields]
        rw [if_neg (by decide)]
        have hn : fieldName (fld b%"A" 1).name (fld b%"A" 1).tag = .named b%"a" false := by decide +kernel
        rw [hn]
        change TypeWalk.M.bind (chk 1 false) _ _ = _
        unfold TypeWalk.M.bind
        rw [hl]
      have hn : ∀ s, newStruct Recursive.prog chk 0 b%"Q" [fld b%"A" 1] [] s = .oof := by
        intro s
        change TypeWalk.M.bind (walkFields Recursive.prog chk 0 [fld b%"A" 1] []) _ _ = _
        unfold TypeWalk.M.bind
        rw [hw]
      exact hn _
  have hw : walkRoots Recursive.prog fuel d ⟨[], [], 0, []⟩ = .oof := by
    unfold walkRoots
    rw [hq]
    change TypeWalk.M.bind (check Recursive.prog fuel 0 false) _ ⟨[], [], 0, []⟩ = _
    unfold TypeWalk.M.bind
    rw [hc]
  unfold parse
  rw [hw]

/-! ## Types that `Parse` mixes up -/

namespace Mixed

/-- ```go
package main
type Q struct { A a.User; B b.User }
type M struct {}
type I interface {}
package a
type User struct { Name string }
package b
type User struct { Secret string }   // registered as implementing I
``` -/
def get : Ty → GoType
  | 0 => ⟨b%"Q", b%"main", .struct [fld b%"A" 1, fld b%"B" 2], []⟩
  | 1 => ⟨b%"User", b%"a", .struct [fld b%"Name" 3], []⟩
  | 2 => ⟨b%"User", b%"b", .struct [fld b%"Secret" 3], []⟩
  | 3 => basic b%"string" .string
  | 4 => ⟨b%"I", b%"main", .iface, []⟩
  | _ => ⟨b%"M", b%"main", .struct [], []⟩

def prog : Program Unit where
  get := get
  implements := fun t u => t = 2 ∧ u = 4
  isError := fun _ => false
  zero := fun _ => .scalar (.bool false)
  renamed := fun _ => none
  implMap := fun n => if n = b%"I" then some [2] else none
  structImpl := fun n => if n = b%"User" then [4] else []
  enums := []

def decl : Decl D := ⟨0, 5, .struct [], .struct [], none, false, 60, []⟩

/-- the same program without field `B` -/
def prog' : Program Unit := { prog with get := fun t => if t = 0 then ⟨b%"Q", b%"main", .struct [fld b%"A" 1, fld b%"I" 4], []⟩ else get t }

def schema' : Schema Unit D := (toOption (parse prog' 10 decl)).get (by decide +kernel)

end Mixed

/-- **C48, refuted**: two reachable struct types of different packages share a GraphQL name, one is registered as implementing an interface,
and `Parse` accepts them as one type: the schema shows the fields of `a.User` also for values of `b.User`. -/
theorem C48_refuted_same_name : parse Mixed.prog' 10 Mixed.decl = .ok Mixed.schema' ∧
    Reach Mixed.prog' Mixed.decl 1 ∧ Reach Mixed.prog' Mixed.decl 2 ∧
    (Mixed.prog'.get 1).name = (Mixed.prog'.get 2).name ∧ (Mixed.prog'.get 1).pkg ≠ (Mixed.prog'.get 2).pkg ∧
    Mixed.schema'.types.map (fun e => (e.1, e.2.goPkgPath, e.2.fields.map (·.qlFieldName))) =
      [(b%"M", b%"main", []), (b%"Q", b%"main", [b%"i", b%"a"]), (b%"User", b%"a", [b%"name"])] ∧
    Mixed.schema'.interfaces.map (fun e => (e.1, e.2.implementations.map (fun i => (i.goTypeName, i.goPkgPath, i.typeName)))) =
      [(b%"I", [(b%"User", b%"b", b%"User")])] := by
  refine ⟨of_toOption _ _, ?_, ?_, rfl, by decide, by decide +kernel, by decide +kernel⟩
  · intro R hR hr
    exact hR.child 0 1 (hr _ .query) (.field (fs := [fld b%"A" 1, fld b%"I" 4]) (i := 0) ⟨rfl, by decide⟩ rfl rfl rfl (fun _ h => (by cases h)))
  · intro R hR hr
    have h4 := hR.child 0 4 (hr _ .query) (.field (fs := [fld b%"A" 1, fld b%"I" 4]) (i := 1) ⟨rfl, by decide⟩ rfl rfl rfl (fun _ h => (by cases h)))
    exact hR.impl 4 [2] 2 h4 (by decide) rfl (by decide +kernel) (List.mem_singleton.2 rfl)

namespace MixedIn

/-- ```go
package main
type Q struct {}
func (Q) ResolveX(args struct{ A a.In }) string
func (Q) ResolveY(args struct{ B b.In }) string
package a
type In struct { Name string }
package b
type In struct { Secret string }
``` -/
def get : Ty → GoType
  | 0 => ⟨b%"Q", b%"main", .struct [], [(b%"ResolveX", ⟨false, [0, 4], [3]⟩), (b%"ResolveY", ⟨false, [0, 5], [3]⟩)]⟩
  | 1 => ⟨b%"In", b%"a", .struct [fld b%"Name" 3], []⟩
  | 2 => ⟨b%"In", b%"b", .struct [fld b%"Secret" 3], []⟩
  | 3 => basic b%"string" .string
  | 4 => anon (.struct [fld b%"A" 1])
  | 5 => anon (.struct [fld b%"B" 2])
  | _ => ⟨b%"M", b%"main", .struct [], []⟩

def prog : Program Unit where
  get := get
  implements := fun _ _ => false
  isError := fun _ => false
  zero := fun _ => .scalar (.bool false)
  renamed := fun _ => none
  implMap := fun _ => none
  structImpl := fun _ => []
  enums := []

def decl : Decl D := ⟨0, 6, .struct [], .struct [], none, false, 60, []⟩

def schema : Schema Unit D := (toOption (parse prog 10 decl)).get (by decide +kernel)

end MixedIn

/-- the argument names of the fields of a type -/
def argsOf (t : TypeDef Unit D) : List (Bytes × List (Bytes × Input)) :=
  t.fields.map (fun f => (f.qlFieldName, match f.obj with | .method m _ => m.inFields.map (fun a => (a.key, a.input)) | _ => []))

/-- **C48, refuted** for inputs: two input structs of different packages with one name become one input type, that of the first. -/
theorem C48_refuted_same_input : parse MixedIn.prog 10 MixedIn.decl = .ok MixedIn.schema ∧
    argsOf MixedIn.schema.rootQuery = [(b%"y", [(b%"b", .struct b%"In")]), (b%"x", [(b%"a", .struct b%"In")])] ∧
    MixedIn.schema.inTypes.map (fun e => (e.1, e.2.fields.map (·.key))) = [(b%"In", [b%"name"])] :=
  ⟨of_toOption _ _, by decide +kernel, by decide +kernel⟩

namespace Unexported

/-- `type Q struct { password string }` -/
def prog : Program Unit where
  get := fun t => if t = 0 then ⟨b%"Q", b%"main", .struct [fld b%"password" 1], []⟩ else if t = 1 then basic b%"string" .string
    else ⟨b%"M", b%"main", .struct [], []⟩
  implements := fun _ _ => false
  isError := fun _ => false
  zero := fun _ => .scalar (.bool false)
  renamed := fun _ => none
  implMap := fun _ => none
  structImpl := fun _ => []
  enums := []

def decl : Decl D := ⟨0, 2, .struct [.str b%"hunter2"], .struct [], none, false, 60, []⟩

def schema : Schema Unit D := (toOption (parse prog 10 decl)).get (by decide +kernel)

/-- what a client gets -/
def ask (q : Bytes) : Option Bytes :=
  match resolve 200 (viewSchema schema) GoDemo.env Demo.noStack [] (Demo.request q) with
  | .ok (body, _) _ => some body
  | _ => none

end Unexported

/-- **C56, refuted** for unexported fields: a field whose Go name begins with a lower-case letter is part of the schema and answered. -/
theorem C56_refuted_unexported : parse Unexported.prog 10 Unexported.decl = .ok Unexported.schema ∧
    Unexported.schema.rootQuery.fields.map (·.qlFieldName) = [b%"password"] ∧
    Unexported.ask b%"{password}" = some b%"{\"data\":{\"password\":\"hunter2\"}}" :=
  ⟨of_toOption _ _, by decide +kernel, by decide +kernel⟩

/-! ## C58 -/

/-- **C58** (enums). A type is an enum of the schema if and only if it has a package, a kind enums may have, and the name of a registered
enum; the first one registered under the name counts. -/
theorem C58_enum_by_name_partial {F : Type} (prog : Program F) (t : Ty) (i : Nat) : enumIndex prog t = some i ↔
    ∃ k, (prog.get t).shape = .scalar k ∧ (prog.get t).pkg ≠ [] ∧ (prog.get t).name ≠ [] ∧ (k = .string ∨ (∃ w, k = .int w) ∨ ∃ w, k = .uint w) ∧
      ∃ e, prog.enums[i]? = some e ∧ e.typeName = (prog.get t).name ∧
        ∀ j e', j < i → prog.enums[j]? = some e' → e'.typeName ≠ (prog.get t).name := by
  have hkind : ∀ k, validEnumKind k = true ↔ (k = .string ∨ (∃ w, k = .int w) ∨ ∃ w, k = .uint w) := by
    intro k; cases k <;> simp [validEnumKind]
  unfold enumIndex
  cases hs : (prog.get t).shape with
  | scalar k =>
    dsimp only
    by_cases hc : (prog.get t).pkg = [] ∨ (prog.get t).name = [] ∨ validEnumKind k = false
    · rw [if_pos hc]
      constructor
      · intro h; cases h
      · rintro ⟨k', hk, h1, h2, h3, _⟩
        injection hk with hk; subst hk
        rcases hc with h | h | h
        · exact absurd h h1
        · exact absurd h h2
        · rw [(hkind k).2 h3] at h; cases h
    · rw [if_neg hc]
      have h1 : (prog.get t).pkg ≠ [] := fun h => hc (.inl h)
      have h2 : (prog.get t).name ≠ [] := fun h => hc (.inr (.inl h))
      have h3 : validEnumKind k = true := by
        cases h : validEnumKind k with
        | true => rfl
        | false => exact absurd (.inr (.inr h)) hc
      rw [List.findIdx?_eq_some_iff_getElem]
      constructor
      · rintro ⟨hlt, ha, hb⟩
        refine ⟨k, rfl, h1, h2, (hkind k).1 h3, _, List.getElem?_eq_getElem hlt, of_decide_eq_true ha, ?_⟩
        intro j e' hj he'
        have := hb j hj
        obtain ⟨hl, rfl⟩ := List.getElem?_eq_some_iff.1 he'
        simpa using this
      · rintro ⟨k', hk, _, _, _, e, he, hn, hall⟩
        obtain ⟨hl, rfl⟩ := List.getElem?_eq_some_iff.1 he
        refine ⟨hl, by simpa using hn, ?_⟩
        intro j hj
        have := hall j _ hj (List.getElem?_eq_getElem (Nat.lt_trans hj hl))
        simpa using this
  | _ =>
    constructor
    · intro h; cases h
    · rintro ⟨k', hk, _⟩; cases hk

namespace EnumMix

/-- `a.Color` (a string) is the registered enum; `b.Color` is an `int64` that has nothing to do with it -/
def prog : Program Unit where
  get := fun t => if t = 0 then ⟨b%"Color", b%"a", .scalar .string, []⟩ else ⟨b%"Color", b%"b", .scalar (.int .w64), []⟩
  implements := fun _ _ => false
  isError := fun _ => false
  zero := fun _ => .scalar (.bool false)
  renamed := fun _ => none
  implMap := fun _ => none
  structImpl := fun _ => []
  enums := [⟨b%"Color", .string, [(b%"RED", .string b%"red")]⟩]

end EnumMix

/-- **C58, refuted** for "only the registered type": another package's type of the same name is taken for the enum, whatever its kind. -/
theorem C58_refuted_other_type : enumIndex EnumMix.prog 0 = some 0 ∧ enumIndex EnumMix.prog 1 = some 0 ∧
    (EnumMix.prog.get 0).pkg ≠ (EnumMix.prog.get 1).pkg ∧ ¬ EnumKinds EnumMix.prog := by
  refine ⟨by decide, by decide, by decide, ?_⟩
  intro h
  obtain ⟨e, he, hk⟩ := h 1 0 (.int .w64) rfl (by decide)
  injection he with he
  subst he
  cases hk

end Yarql
