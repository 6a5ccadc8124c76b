import Verif.Props.Introspect
import Verif.Props.Isolation

/-!
# C42: requests on a copy
-/

namespace Yarql
open Resolver Introspect

section
variable {F V W : Type}

/-- what the resolver reads of a copy is what it reads of the original -/
theorem viewSchema_copy (s : Schema F V) : viewSchema (copySchema s) = viewSchema s := by
  rw [C42_copy_reveals]
  unfold viewSchema
  dsimp only
  have hr : (viewField (F := F) (V := V)) ∘ reveal = viewField := rfl
  have ht : ∀ e : Bytes × TypeDef F V, viewType { e.2 with fields := e.2.fields.map reveal } = viewType e.2 := by
    intro e
    unfold viewType
    dsimp only
    rw [List.map_map, hr]
  simp only [List.map_map, Function.comp_def, ht]
  unfold viewType
  simp only [List.map_map, hr]

/-- **C42** (requests). A copy answers every request exactly as the original does in the same world — response, errors, effects, or panic. -/
theorem C42_same_answers [DecidableEq F] (s : Schema F V) (env : Env F V W) (w : W) (req : Request) (r : R W (Bytes × List ReqErr)) :
    Answers (viewSchema (copySchema s)) env w req r ↔ Answers (viewSchema s) env w req r := by
  rw [viewSchema_copy]

end
end Yarql
