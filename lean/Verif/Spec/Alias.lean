import Verif.Spec.Respell

/-!
# What renaming response keys may change

Two lists of selections that differ only in aliases have the same fields in the same places.  `Counterpart` relates a field of the
first to the field in its place in the second; `SamePlace` relates the paths of the two responses that lead through counterparts;
`Relabelled` relates two responses that are the same except that each key is replaced by that of its counterpart.
-/

namespace Yarql
namespace Alias
open Doc Eval

variable (frags frags' : List Fragment)

/-- The fields `(key, sub)` of the first selections and `(key', sub')` of the second stand in the same place: reached through the same
inline fragments and spreads, at the same position. -/
inductive Counterpart : List Sel → List Sel → Bytes × List Sel → Bytes × List Sel → Prop where
  | here {key key' name name' dirs dirs' args args' sub sub' rest rest'} :
      Counterpart (.field key name dirs args sub :: rest) (.field key' name' dirs' args' sub' :: rest') (key, sub) (key', sub')
  | later {s s' rest rest' a b} : Counterpart rest rest' a b → Counterpart (s :: rest) (s' :: rest') a b
  | inline {ty ty' dirs dirs' sub sub' rest rest' a b} : Counterpart sub sub' a b →
      Counterpart (.inline ty dirs sub :: rest) (.inline ty' dirs' sub' :: rest') a b
  | spread {name dirs dirs' f f' rest rest' a b} : frags.find? (fun f => f.name = name) = some f → frags'.find? (fun f => f.name = name) = some f' →
      Counterpart f.sels f'.sels a b → Counterpart (.spread name dirs :: rest) (.spread name dirs' :: rest') a b

/-- The two paths lead through counterparts to the same place of the two responses. -/
inductive SamePlace : List Sel → List Sel → List Seg → List Seg → Prop where
  | here {sels sels'} : SamePlace sels sels' [] []
  | item {sels sels' i p p'} : SamePlace sels sels' p p' → SamePlace sels sels' (.idx i :: p) (.idx i :: p')
  | member {sels sels' key key' sub sub' p p'} : Counterpart frags frags' sels sels' (key, sub) (key', sub') → SamePlace sub sub' p p' →
      SamePlace sels sels' (.key key :: p) (.key key' :: p')

mutual
/-- The same response, with the keys of the first selections replaced by those of the second. -/
inductive Relabelled : List Sel → List Sel → Out → Out → Prop where
  | missing {sels sels'} : Relabelled sels sels' .missing .missing
  | null {sels sels'} : Relabelled sels sels' .null .null
  | leaf {sels sels' t} : Relabelled sels sels' (.leaf t) (.leaf t)
  | list {sels sels' xs ys} : RelabelledItems sels sels' xs ys → Relabelled sels sels' (.list xs) (.list ys)
  | obj {sels sels' xs ys} : RelabelledMembers sels sels' xs ys → Relabelled sels sels' (.obj xs) (.obj ys)
inductive RelabelledItems : List Sel → List Sel → List Out → List Out → Prop where
  | nil {sels sels'} : RelabelledItems sels sels' [] []
  | cons {sels sels' x y xs ys} : Relabelled sels sels' x y → RelabelledItems sels sels' xs ys → RelabelledItems sels sels' (x :: xs) (y :: ys)
inductive RelabelledMembers : List Sel → List Sel → List (Bytes × Out) → List (Bytes × Out) → Prop where
  | nil {sels sels'} : RelabelledMembers sels sels' [] []
  | cons {sels sels' key key' sub sub' x y xs ys} : Counterpart frags frags' sels sels' (key, sub) (key', sub') → Relabelled sub sub' x y →
      RelabelledMembers sels sels' xs ys → RelabelledMembers sels sels' ((key, x) :: xs) ((key', y) :: ys)
end

/-- The same messages in the same order, each at the same place. -/
inductive SameErrors (sels sels' : List Sel) : List (Bytes × List Seg) → List (Bytes × List Seg) → Prop where
  | nil : SameErrors sels sels' [] []
  | cons {msg p p' es es'} : SamePlace frags frags' sels sels' p p' → SameErrors sels sels' es es' →
      SameErrors sels sels' ((msg, p) :: es) ((msg, p') :: es')

end Alias
end Yarql
