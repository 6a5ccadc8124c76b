import Verif.Model.Bytes
import Verif.Model.Decimal

/-!
# Response trees, paths and their text

Independent of the resolver model.
-/

namespace Yarql
namespace Eval

/-- A response value.  `missing` is a key for which the implementation writes no value at all (a defect, see C14). -/
inductive Out where
  | missing
  | null
  /-- the JSON text of a scalar -/
  | leaf (text : Bytes)
  | list (items : List Out)
  | obj (members : List (Bytes × Out))

mutual
/-- JSON text of a response value; keys are GraphQL names and need no escaping -/
def print : Out → Bytes
  | .missing => []
  | .null => b%"null"
  | .leaf t => t
  | .list xs => [c%'['] ++ printItems true xs ++ [c%']']
  | .obj ms => [c%'{'] ++ printMembers true ms ++ [c%'}']
/-- comma separated items; `first` = no comma before the first one -/
def printItems (first : Bool) : List Out → Bytes
  | [] => []
  | x :: xs => (if first then [] else [c%',']) ++ print x ++ printItems false xs
/-- comma separated members -/
def printMembers (first : Bool) : List (Bytes × Out) → Bytes
  | [] => []
  | (k, x) :: ms => (if first then [] else [c%',']) ++ [c%'"'] ++ k ++ [c%'"', c%':'] ++ print x ++ printMembers false ms
end

/-- A step of a response path: a response key or a list index. -/
inductive Seg where
  | key (k : Bytes)
  | idx (i : Nat)
deriving DecidableEq

def segText : Seg → Bytes
  | .key k => [c%'"'] ++ k ++ [c%'"']
  | .idx i => natDigits i

/-- the steps, each preceded by a comma -/
def pathText : List Seg → Bytes
  | [] => []
  | s :: ss => [c%','] ++ segText s ++ pathText ss

/-- the JSON text of a path, without the brackets: steps separated by commas; `none` for the empty path (an error that
belongs to no field) -/
def pathJSON : List Seg → Option Bytes
  | [] => none
  | s :: ss => some (segText s ++ pathText ss)

/-- `At out p x`: following the path `p` from `out` leads to `x`. -/
inductive At : Out → List Seg → Out → Prop where
  | here {o} : At o [] o
  | key {ms k x p y} : (k, x) ∈ ms → At x p y → At (.obj ms) (.key k :: p) y
  | idx {items i x p y} : items[i]? = some x → At x p y → At (.list items) (.idx i :: p) y

/-- the path leads to a value of the response, or to a key that an object of the response does not have (a field whose
directives failed) -/
def Located (out : Out) (p : List Seg) : Prop :=
  (∃ x, At out p x) ∨ ∃ q k ms, p = q ++ [.key k] ∧ At out q (.obj ms)

end Eval
end Yarql
