import Verif.Props.ArgTypes
import Verif.Props.WellFormed

/-!
# Queries that are executed as something else than what they say: C16, C14, C23, C25, C26

Concrete requests.  A string literal with an escaped NUL ends at the NUL for the resolver, and what follows is executed as bytecode; an
argument behind a list argument, or a member behind a list member of an input object, is taken for something else or ignored.
-/

namespace Yarql
namespace Escapes
open Doc Resolver Typed Demo

/-- `func (R) ResolveTell(args struct{ S string }) R` besides the field `color` -/
def tellType : RType Unit D := ⟨b%"R", [field b%"tell" 5 (.method ArgsDemo.say (.objRef b%"R")), field b%"color" 0 (.enum 0)]⟩
def tellSchema : RSchema Unit D := { ArgsDemo.schema with types := [(b%"R", tellType)], rootQuery := tellType }

/-- the body of the response and the number of errors -/
def answer (schema : RSchema Unit D) (q : Bytes) : Option (Bytes × Nat) :=
  match resolve 300 schema ArgsDemo.env noStack [] (request q) with
  | .ok (b, es) _ => some (b, es.length)
  | _ => none

/-- `{tell(s:"x\u0000e\u0000f..."){color}}` -/
def forged : Bytes :=
  b%"{tell(s:\"x\\u0000e\\u0000f\\u0000\\u0015\\u0000\\u0000\\u0000\\u0000\\u0000\\u0000\\u0000\\u0007a\\\":1,\\\"b\\u000a__typename\\u0000e\\u0000e\"){color}}"

/-- **C16 is false in general**: the selection of `tell` is `{color}`, but what the string argument contains behind an escaped NUL is
executed instead: without any error, the object has the members `a` and `b`, of which the value 1 comes from the
query and not from Go. (With a string without NUL the selection is answered.) -/
theorem C16_refuted_by_nul : answer tellSchema forged = some (b%"{\"data\":{\"tell\":{\"a\":1,\"b\":\"R\"}}}", 0) ∧
    answer tellSchema b%"{tell(s:\"x\"){color}}" = some (b%"{\"data\":{\"tell\":{\"color\":\"BLUE\"}}}", 0) := by decide +kernel

theorem parsed {q : Bytes} {target : Option Bytes} {d : List Def}
    (h : (match Parser.parseQuery q target with
      | .ok () s => s.errs.isEmpty && s.res == encDoc d && s.frags == fragPositions 0 d && s.targetIdx == selectedOp target (opPositions 0 d)
      | _ => false) = true) : Parsed q target d := by
  cases hp : Parser.parseQuery q target with
  | ok u s =>
    cases u
    rw [hp] at h
    simp only [Bool.and_eq_true, List.isEmpty_iff, beq_iff_eq] at h
    exact ⟨s, hp, h.1.1.1, h.1.1.2, h.1.2, h.2⟩
  | panic => rw [hp] at h; cases h
  | oof => rw [hp] at h; cases h

/-- the query is an ordinary document: one field with one string argument and the selection `{color}` -/
theorem forged_parsed : ∃ s, Parsed forged none [.op (query [.field b%"tell" none [] (some [(b%"s", .str s)]) [.field b%"color" none [] none []]])] := by
  refine ⟨[120, 0, 101, 0, 102, 0, 21, 0, 0, 0, 0, 0, 0, 0, 7] ++ b%"a\":1,\"b" ++ [10] ++ b%"__typename" ++ [0, 101, 0, 101], ?_⟩
  exact parsed (by decide +kernel)

/-- **C14 is false**, also if all arguments bind: the same way a key with a quotation mark gets into the response. -/
theorem C14_refuted_by_nul : ∃ body es w',
    resolve 300 tellSchema ArgsDemo.env noStack []
      (request b%"{tell(s:\"x\\u0000e\\u0000f\\u0000\\u000f\\u0000\\u0000\\u0000\\u0000\\u0000\\u0000\\u0000\\u0001\\\"\\u000a__typename\\u0000e\\u0000e\"){color}}") = .ok (body, es) w' ∧
    es = [] ∧ ¬ Json.JText body := by
  have h : answer tellSchema b%"{tell(s:\"x\\u0000e\\u0000f\\u0000\\u000f\\u0000\\u0000\\u0000\\u0000\\u0000\\u0000\\u0000\\u0001\\\"\\u000a__typename\\u0000e\\u0000e\"){color}}" =
      some (b%"{\"data\":{\"tell\":{\"\"\":\"R\"}}}", 0) := by decide +kernel
  unfold answer at h
  split at h
  · rename_i b es w' heq
    injection h with h
    injection h with h1 h2
    subst h1
    exact ⟨_, es, w', heq, List.length_eq_zero_iff.1 h2, Json.not_json (by decide +kernel)⟩
  · cases h

/-! ## Behind lists -/

/-- the errors of a request and the calls it makes -/
def given (schema : RSchema Unit D) (req : Request) : Option (Nat × World) :=
  match resolve 300 schema ArgsDemo.env noStack [] req with
  | .ok (_, es) w => some (es.length, w)
  | _ => none

/-- ```go
type Box struct { Xs []int64; N int64 }
func (R) ResolvePut(args struct{ O Box; N int64 }) int64
``` -/
def box : InStruct Unit := ⟨[⟨b%"xs", 0, .slice ArgsDemo.int64⟩, ⟨b%"n", 1, ArgsDemo.int64⟩], .struct [.slice none, .scalar (.int 0)]⟩
def put : Method Unit :=
  ⟨true, [.struct (.struct [.struct [.slice none, .scalar (.int 0)], .scalar (.int 0)])], [⟨b%"o", 0, 0, .struct b%"Box"⟩, ⟨b%"n", 0, 1, ArgsDemo.int64⟩], 0, none⟩
def putType : RType Unit D := ⟨b%"R", [field b%"put" 0 (.method put ArgsDemo.number)]⟩
def putSchema : RSchema Unit D :=
  { ArgsDemo.schema with types := [(b%"R", putType)], rootQuery := putType, inTypes := [(b%"Box", box)] }

/-- the number of errors, and what `put` was called with: `o.xs`, `o.n` and `n` -/
def putWith (req : Request) : Option (Nat × Int × Int × Int) :=
  match given putSchema req with
  | some (k, [(_, _, [.val (.struct [.struct [.slice (some [.scalar (.int a)]), .scalar (.int b)], .scalar (.int c)])])]) => some (k, a, b, c)
  | _ => none

/-- **C25 is false in general**: the member `n` of the object literal is delivered to the parameter `n` of the function, without error.
Written the other way round, it is delivered as written. -/
theorem C25_refuted_escape : putWith (request b%"{put(o:{xs:[1],n:7})}") = some (0, 1, 0, 7) ∧
    putWith (request b%"{put(o:{n:7,xs:[1]})}") = some (0, 1, 7, 0) := by decide +kernel

/-- **C23 is false in general**: the integer 7 for `o.n` is delivered as 0 there, and no error is reported. -/
theorem C23_refuted : ∃ k a b c, putWith (request b%"{put(o:{xs:[1],n:7})}") = some (k, a, b, c) ∧ k = 0 ∧ b ≠ 7 :=
  ⟨0, 1, 0, 7, C25_refuted_escape.1, rfl, by decide⟩

/-- **C29 is false in general**: so is the value of a variable. -/
theorem C29_refuted : putWith (ArgsDemo.requestV b%"query($v:Int){put(o:{xs:[1],n:$v})}" [(b%"v", .num b%"7")]) = some (0, 1, 0, 7) ∧
    putWith (ArgsDemo.requestV b%"query($v:Int){put(o:{n:$v,xs:[1]})}" [(b%"v", .num b%"7")]) = some (0, 1, 7, 0) := by decide +kernel

/-- **C26 is false in general**: an argument that `sum` does not declare, behind a list argument, does not keep `sum` from being called.
(Alone it does.) -/
theorem C26_refuted : ArgsDemo.sumOf (request b%"{sum(xs:[1,2],zzz:3)}") = some (1, [some 1, some 2], 0) ∧
    given ArgsDemo.schema (request b%"{sum(zzz:3)}") = some (1, []) := by
  refine ⟨by decide +kernel, ?_⟩
  have h : (given ArgsDemo.schema (request b%"{sum(zzz:3)}")).map (fun x => (x.1, x.2.length)) = some (1, 0) := by decide +kernel
  cases hg : given ArgsDemo.schema (request b%"{sum(zzz:3)}") with
  | none => rw [hg] at h; cases h
  | some x =>
    obtain ⟨n, w⟩ := x
    rw [hg] at h
    injection h with h
    injection h with h1 h2
    dsimp only at h1 h2
    rw [h1, List.length_eq_zero_iff.1 h2]

end Escapes
end Yarql
