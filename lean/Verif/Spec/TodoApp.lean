import Verif.Model.Bytes

/-!
# What a client of the example backend expects

A list of todos with titles that are values.  Nothing here refers to the program or to memory.
-/

namespace Yarql
namespace TodoSpec

structure Item where
  id : UInt64
  title : Bytes
  done : Bool

/-- the todos, and the id of the next one -/
structure Store where
  next : UInt64
  items : List Item

inductive Action where
  | todos
  | todo (id : UInt64)
  | create (title : Bytes)
  | update (id : UInt64) (title : Option Bytes) (done : Option Bool)
  | delete (id : UInt64)

inductive Answer where
  | list (l : List Item)
  | one (t : Item)
  | nothing
  | notFound (id : UInt64)

/-- an item with another title or state -/
def Item.changed (t : Item) (title : Option Bytes) (done : Option Bool) : Item :=
  ⟨t.id, title.getD t.title, done.getD t.done⟩

/-- `Does s a s' r`: in the store `s` the action `a` is answered with `r`, the store is `s'` afterwards. -/
inductive Does (s : Store) : Action → Store → Answer → Prop where
  | todos : Does s .todos s (.list s.items)
  | todo {t} : t ∈ s.items → Does s (.todo t.id) s (.one t)
  | noTodo {id} : (∀ t ∈ s.items, t.id ≠ id) → Does s (.todo id) s .nothing
  /-- a new id, at the end of the list -/
  | create {title} : (∀ t ∈ s.items, t.id ≠ s.next) →
      Does s (.create title) ⟨s.next + 1, s.items ++ [⟨s.next, title, false⟩]⟩ (.one ⟨s.next, title, false⟩)
  /-- in its place, the other todos as they were -/
  | update {t title done before after} : s.items = before ++ t :: after → (∀ u ∈ before ++ after, u.id ≠ t.id) →
      Does s (.update t.id title done) ⟨s.next, before ++ t.changed title done :: after⟩ (.one (t.changed title done))
  | noUpdate {id title done} : (∀ t ∈ s.items, t.id ≠ id) → Does s (.update id title done) s (.notFound id)
  | delete {t before after} : s.items = before ++ t :: after → (∀ u ∈ before ++ after, u.id ≠ t.id) →
      Does s (.delete t.id) ⟨s.next, before ++ after⟩ (.list (before ++ after))
  | noDelete {id} : (∀ t ∈ s.items, t.id ≠ id) → Does s (.delete id) s (.notFound id)

/-- several actions, one after the other -/
inductive DoesAll : Store → List Action → Store → List Answer → Prop where
  | nil {s} : DoesAll s [] s []
  | cons {s a s1 r as s2 rs} : Does s a s1 r → DoesAll s1 as s2 rs → DoesAll s (a :: as) s2 (r :: rs)

end TodoSpec
end Yarql
