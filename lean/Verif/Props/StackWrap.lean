import Verif.Props.ErrorPaths

/-!
# C22 beyond the value stack

The value stack has 256 entries and its index wraps around: a field takes one entry, and so does each list layer of its type. In the
schema

```go
type Node struct { I uint32; N [][][][][][][]Node }
```
a query that goes 32 levels deep overwrites the entry of the root object: fields of the root that are selected after the nested
selection are read from the Go value 32 levels down. The depth limit (255 by default) does not prevent this. (With `N []Node` the same
happens 128 levels deep; lists of lists only make the example small enough to be evaluated by the kernel.)
-/

namespace Yarql
namespace StackWrap
open Doc Resolver Typed

/-- Go values of an endless chain of nodes: the node `n`, its number, its list, a function (there is none) -/
inductive D where
  | node (n : Nat)
  | number (n : Nat)
  | next (layers n : Nat)

def env : Env Unit D Unit where
  view := fun _ v => match v with
    | .node n => .struct [.number n, .next 7 n]
    | .number n => .scalar (.uint n)
    | .next (l + 2) n => .seq (some [.next (l + 1) n])
    | .next _ n => .seq (some [.node (n + 1)])
  method := fun v _ => v
  call := fun _ _ _ _ => none
  errOf := fun _ _ => none
  skip := fun _ _ => false
  ctxErr := fun _ => none
  formFile := none
  parseFloat := fun _ => some ()
  floatOfInt := fun _ => ()
  toF32 := fun _ => ()
  floatZero := ()
  jsonFloat := fun _ => ()
  floatText := fun _ _ => b%"0"
  numError := fun _ t => t
  jsonIntError := fun t => t
  typeString := fun _ => []

def node : RType Unit D := ⟨b%"Node", [⟨fnv1 b%"i", 0, none, .data false (.uint .w32)⟩, ⟨fnv1 b%"n", 1, none, .array (.array (.array (.array (.array (.array (.array (.objRef b%"Node")))))))⟩]⟩

def schema : RSchema Unit D where
  types := [(b%"Node", node)]
  interfaces := []
  inTypes := []
  rootQuery := node
  rootMethod := ⟨b%"M", []⟩
  rootQueryValue := .node 0
  rootMethodValue := .node 0
  maxDepth := 255
  enums := []
  directives := []

/-- `n{n{…{i}…}}`, `k` levels -/
def nested : Nat → Bytes
  | 0 => b%"i"
  | k + 1 => b%"n{" ++ nested k ++ b%"}"

/-- `{a:i n{…} b:i}` -/
def request (k : Nat) : Request := ⟨b%"{a:i " ++ nested k ++ b%" b:i}", [], false, .empty⟩

def noStack : UInt8 → D := fun _ => .node 0

/-- the response, and the number of errors -/
def ask (fuel k : Nat) : Option (Bytes × Nat) :=
  match resolve fuel schema env noStack () (request k) with
  | .ok (b, es) _ => some (b, es.length)
  | _ => none

/-- what a response to `request k` should be -/
def shown : Nat → Nat → Bytes
  | 0, n => b%"\"i\":" ++ natDigits n
  | k + 1, n => b%"\"n\":[[[[[[[{" ++ shown k (n + 1) ++ b%"}]]]]]]]"

def answer (k b : Nat) : Bytes := b%"{\"data\":{\"a\":0," ++ shown k 0 ++ b%",\"b\":" ++ natDigits b ++ b%"}}"

/-- 3 levels: right, `a` and `b` are both the root's number. By C22 the same holds up to 31 levels, where `31 * 8 ≤ 255`. -/
theorem ask3 : ask 300 3 = some (answer 3 0, 0) := by decide +kernel

/-- **C22 refuted** beyond the value stack: 32 levels deep, without any error, `b` is the number of another node than `a`. -/
theorem C22_refuted_beyond_stack : ask 2000 32 = some (answer 32 32, 0) := by decide +kernel

end StackWrap
end Yarql
