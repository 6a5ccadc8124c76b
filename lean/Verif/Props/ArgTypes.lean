import Verif.Props.Arguments
import Verif.Model.Introspect

/-!
# C51 (introspected argument types are usable) and C54 (no panics)
-/

namespace Yarql
open Doc Resolver Eval Typed Yarql.Bind Binding CallsMade Introspect

/-! ## C51 -/

/-- `Reads q ty`: the introspected type `q`, read as GraphQL type notation, is the declared type `ty` -/
inductive Reads : QT → Ty → Prop where
  | named {n} : Reads (.named n) (.named n false)
  | nonNullNamed {n} : Reads (.nonNull (.named n)) (.named n true)
  | list {q t} : Reads q t → Reads (.list q) (.list t false)
  | nonNullList {q t} : Reads q t → Reads (.nonNull (.list q)) (.list t true)

/-- Parameters for which introspection and variables agree: no enum that is not based on strings, no fixed-size array, no pointers as
list elements. -/
def Agreeing {F : Type} (enums : List (EnumDef F)) : Input → Prop
  | .scalar k (some e) id => (k = .string ∧ id = false ∧ ∃ d, enums[e]? = some d)
  | .slice (.ptr _) => False
  | .slice e => Agreeing enums e
  | .array _ _ => False
  | .ptr e => Agreeing enums e
  | _ => True

section
variable {F V W : Type}

theorem not_ptr_reads {enums : List (EnumDef F)} {ty : Ty} {e : Input} : ¬ DeclFits enums ty (.ptr e) := by
  intro h
  cases h with
  | named h => exact h

/-- what introspection reports for an input that is no pointer -/
theorem reads_fits (enums : List (EnumDef F)) (inp : Input) (h : Agreeing enums inp) (b : Bool) :
    ∀ ty, Reads (wrap ((inputToQLType inp).1, b)) ty → DeclFits enums ty (peel inp) := by
  have atom : ∀ (n : Bytes) (i : Input), TypeFits enums i n → ∀ (b : Bool) ty, Reads (wrap (.named n, b)) ty → DeclFits enums ty i := by
    intro n i hi b ty hr
    cases b <;> cases hr <;> exact .named hi
  induction inp generalizing b with
  | scalar k e id =>
    cases e with
    | some e =>
      obtain ⟨rfl, rfl, d, hd⟩ := h
      exact atom b%"String" (.scalar .string (some e) false) ⟨d, hd, Or.inr rfl⟩ b
    | none =>
      cases id with
      | true => exact atom b%"ID" (.scalar k none true) (Or.inl rfl) b
      | false =>
        exact atom (scalarName k) (.scalar k none false) (by cases k <;> first | rfl | trivial) b
  | time => exact atom b%"Time" .time (Or.inl rfl) b
  | file => exact atom b%"File" .file (Or.inl rfl) b
  | struct n => exact atom n (.struct n) rfl b
  | ptr e ih => exact ih h b
  | array n e => exact h.elim
  | slice e ih =>
    have he : (∀ x, e ≠ .ptr x) ∧ Agreeing enums e := by
      cases e with
      | ptr x => exact h.elim
      | _ => exact ⟨by simp, h⟩
    have hp : peel e = e := by
      cases e with
      | ptr x => exact absurd rfl (he.1 x)
      | _ => rfl
    intro ty hr
    have inner : ∀ t, Reads (wrap (inputToQLType e)) t → DeclFits enums t e := by
      intro t ht
      have := ih he.2 (inputToQLType e).2 t ht
      rwa [hp] at this
    cases b with
    | false =>
      cases hr with
      | list h => exact .list (inner _ h)
    | true =>
      cases hr with
      | nonNullList h => exact .list (inner _ h)

/-- **C51** for the parameters described by `Agreeing`: a variable declared with the type introspection reports for the argument fits it. -/
theorem C51_usable_partial (enums : List (EnumDef F)) (inp : Input) (h : Agreeing enums inp) (ty : Ty)
    (hr : Reads (wrap (inputToQLType inp)) ty) : DeclFits enums ty (peel inp) := reads_fits enums inp h _ ty hr

/-- **C51 is false for enums based on integers**: they are introspected as `Int`, but a variable must be declared with the name of the
enum or `String`. -/
theorem C51_integer_enum (enums : List (EnumDef F)) (k : Kind) (hk : (∃ w, k = .int w) ∨ ∃ w, k = .uint w) (e : Nat) (d : EnumDef F)
    (hd : enums[e]? = some d) (hn : d.typeName ≠ b%"Int") (ty : Ty) (hr : Reads (wrap (inputToQLType (.scalar k (some e) false))) ty) :
    ¬ DeclFits enums ty (.scalar k (some e) false) := by
  intro h
  have hq : wrap (inputToQLType (.scalar k (some e) false)) = .nonNull (.named b%"Int") := by
    rcases hk with ⟨w, rfl⟩ | ⟨w, rfl⟩ <;> rfl
  rw [hq] at hr
  cases hr
  cases h with
  | named h =>
    obtain ⟨d', h1, h2⟩ := h
    rw [hd] at h1
    cases h1
    rcases h2 with h2 | h2
    · exact hn h2.symm
    · exact absurd h2 (by decide)

/-- **C51 is false for lists of pointers**: no declared type at all fits a parameter `[]*T`, except the name `List`. -/
theorem C51_list_of_pointers (enums : List (EnumDef F)) (e : Input) (ty : Ty) (h : DeclFits enums ty (.slice (.ptr e))) :
    ∃ nn, ty = .named b%"List" nn := by
  cases h with
  | named h => exact ⟨_, by rw [show _ = b%"List" from h]⟩
  | list h => exact (not_ptr_reads h).elim

/-- **C51 is false for arrays**: no list type fits a parameter `[n]T`. -/
theorem C51_array (enums : List (EnumDef F)) (n : Nat) (e : Input) (ty : Ty) (h : DeclFits enums ty (.array n e)) :
    ∃ nn, ty = .named b%"List" nn := by
  cases h with
  | named h => exact ⟨_, by rw [show _ = b%"List" from h]⟩

end

/-! ## Demonstrations -/

namespace ArgsDemo
open Demo (D World noStack request query f)

/-- the hypothesis of `C51_usable_partial` is met by nested lists of pointers to ... of plain types, e.g. `*[][]string` -/
example : Agreeing schema.enums (.ptr (.slice (.slice (.scalar .string none false)))) := trivial
example : DeclFits schema.enums (.list (.list (.named b%"String" true) false) false) (peel (.ptr (.slice (.slice (.scalar .string none false))))) :=
  C51_usable_partial _ (.ptr (.slice (.slice (.scalar .string none false)))) trivial _ (.list (.list .nonNullNamed))

/-- a whole request: `paint(c: Color)` is introspected with an argument of type `Int!`; with a variable of that type the request fails -/
theorem C51_refuted : getMethodArgs paint.inFields = [(b%"c", .nonNull (.named b%"Int"))] ∧
    refusedWith (requestV b%"query($v:Int!){paint(c:$v)}" [(b%"v", .num b%"1")]) = some 1 ∧
    refusedWith (requestV b%"query($v:Int!){paint(c:$v)}" [(b%"v", .str b%"RED")]) = some 1 ∧
    intOf (requestV b%"query($v:Color!){paint(c:$v)}" [(b%"v", .str b%"RED")]) = some (0, 1) := by decide +kernel

/-! ## C54 -/

/-- `func (R) ResolveUpload(args struct{ F *multipart.FileHeader }) int64` -/
def upload : Method Unit := ⟨true, [.struct (.struct [.file none])], [⟨b%"f", 0, 0, .file⟩], 0, none⟩
def uploadSchema : RSchema Unit D := { schema with rootQuery := ⟨b%"R", [Demo.field b%"upload" 0 (.method upload number)]⟩ }

/-- **C54 is false**: a request that supplies a value for a `File` variable makes `Resolve` panic if the caller gave no `GetFormFile`
function (a literal is refused with an error instead). -/
theorem C54_refuted : (match resolve 300 uploadSchema env noStack [] (requestV b%"query($v:File){upload(f:$v)}" [(b%"v", .str b%"x")]) with
      | .panic => true | _ => false) = true ∧
    (match resolve 300 uploadSchema env noStack [] (request b%"{upload(f:\"x\")}") with
      | .ok (_, es) _ => some es.length | _ => none) = some 1 := by decide +kernel

/-- `func (R) ResolvePaintAll(args struct{ Cs []*Color }) int64` -/
def paintAll : Method Unit := ⟨true, [.struct (.struct [.slice none])], [⟨b%"cs", 0, 0, .slice (.ptr (.scalar (.int .w64) (some 0) false))⟩], 0, none⟩
def paintAllSchema : RSchema Unit D := { schema with rootQuery := ⟨b%"R", [Demo.field b%"paintAll" 0 (.method paintAll number)]⟩ }

def panics (schema : RSchema Unit D) (q : Bytes) : Bool :=
  match resolve 300 schema env noStack [] (request q) with
  | .panic => true
  | _ => false

/-- **C54 is false**: `null` in a list of nullable enum values makes `Resolve` read beyond the end of the bytecode. -/
theorem C54_refuted_null : panics paintAllSchema b%"{paintAll(cs:[null,RED])}" = true ∧ panics paintAllSchema b%"{paintAll(cs:[RED,BLUE])}" = false := by
  decide +kernel

/-- **C54 is false**: what follows an escaped NUL in a string is executed as bytecode; here it is an argument whose value is cut off. -/
theorem C54_refuted_nul : panics schema b%"{say(s:\"\\u0000us\\u0000vs\")}" = true ∧ panics schema b%"{say(s:\"us vs\")}" = false := by
  decide +kernel

end ArgsDemo
end Yarql
