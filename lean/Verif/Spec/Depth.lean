import Verif.Spec.Response

/-!
# How deep objects nest in a response

`Within n out`: at most `n` objects lie inside each other in `out` (lists do not count). Independent of the resolver.
-/

namespace Yarql
namespace Depth
open Eval

inductive Within : Nat → Out → Prop where
  | missing {n} : Within n .missing
  | null {n} : Within n .null
  | leaf {n t} : Within n (.leaf t)
  | list {n os} : (∀ o ∈ os, Within n o) → Within n (.list os)
  | obj {n ms} : (∀ m ∈ ms, Within n m.2) → Within (n + 1) (.obj ms)

end Depth
end Yarql
