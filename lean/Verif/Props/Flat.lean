import Verif.Props.Respond
import Verif.Proofs.Flat
import Verif.Spec.Demo

/-!
# Type conditions that decide nothing: C92
-/

namespace Yarql
open Doc Resolver Eval Typed

section
variable {F V W : Type} [DecidableEq F]

/-- **C92.** An inline fragment without directives, at any depth, may be replaced by its selections where every object that can occur is
of its type, and by nothing where none is (`Spec/Flat.lean`; the objects that can occur below a field are those the schema permits, for an
interface any implementation): neither the response nor the errors nor the effects change. -/
theorem C92_flatten_partial (schema : RSchema F V) (env : Env F V W) (T : Obj F → V → Prop) (w : W) (req req' : Request) (d d' : List Def)
    (o o' : Operation) (hs : Serves req d o) (hs' : Serves req' d' o') (ht : WellTyped schema env T) (hf : Fits schema (fragmentsOf d) o)
    (hm : req.noMeta = req'.noMeta) (hv : req.vars = req'.vars)
    (hk : o'.kind = o.kind) (hd : o'.dirs = o.dirs) (hdecl : o'.vars = o.vars)
    (hfr : Flat.FlattenFrags schema (fragmentsOf d) (fragmentsOf d'))
    (h : Flat.Flatten schema (Flat.Root schema o) o.sels o'.sels)
    (r : R W (Bytes × List ReqErr)) : Answers schema env w req r ↔ Answers schema env w req' r := by
  refine same_answer schema env T w req req' d d' o o' hs hs' ht hf hm ?_ r
  intro fuel out crit es h1
  obtain ⟨N, k⟩ := Flat.operation_ev (reqOf schema env req d o) (fragmentsOf d') hfr fuel hk hd h ⟨[], w, false⟩ _ _ h1
  refine ⟨N, crit, es, ?_, rfl, rfl⟩
  have e : reqOf schema env req' d' o' = Alias.refrag (reqOf schema env req d o) (fragmentsOf d') := by
    unfold reqOf Alias.refrag
    rw [hv, hdecl]
  rw [e]
  exact k N (Nat.le_refl _)

end

/-! ## Examples -/

namespace Demo

def opNested : Operation := query [.inline b%"User" [] [f b%"name"],
  f b%"friend" [f b%"age", .inline b%"Dog" [] [f b%"sound"], .inline b%"User" [] [.inline b%"User" [] [f b%"nope"], f b%"name"]],
  f b%"pet" [.inline b%"Dog" [] [f b%"sound"]], .spread b%"more" []]
def opFlat : Operation := query [f b%"name", f b%"friend" [f b%"age", f b%"nope", f b%"name"], f b%"pet" [f b%"sound"], .spread b%"more" []]
def nestedMore : Fragment := ⟨b%"more", b%"User", [f b%"friend" [.inline b%"User" [] [f b%"name"]]]⟩
def flatMore : Fragment := ⟨b%"more", b%"User", [f b%"friend" [f b%"name"]]⟩

def reqNested : Request := request (b%"{...on User{name} friend{age ...on Dog{sound} ...on User{...on User{nope} name}} pet{...on Dog{sound}} ...more}" ++
  b%" fragment more on User{friend{...on User{name}}}")
def reqFlat : Request := request b%"{name friend{age nope name} pet{sound} ...more} fragment more on User{friend{name}}"

theorem servesNested : Serves reqNested [.op opNested, .frag nestedMore] opNested := Check.serves (by decide +kernel) rfl
theorem servesFlat : Serves reqFlat [.op opFlat, .frag flatMore] opFlat := Check.serves (by decide +kernel) rfl

theorem below_friend {K : RType Unit D → Prop} (hK : ∀ t, K t → t = user) {t : RType Unit D} (h : Flat.Below schema K b%"friend" t) : t = user := by
  obtain ⟨t0, g, h1, h2, h3, h4⟩ := h
  have e := hK t0 h1
  subst e
  have e : g = field b%"friend" 2 (.ptr (.objRef b%"User")) := by
    simp only [user, List.mem_cons, List.not_mem_nil, or_false] at h2
    rcases h2 with rfl | rfl | rfl | rfl | rfl | rfl | rfl
    · exact absurd h3 (by decide +kernel)
    · exact absurd h3 (by decide +kernel)
    · rfl
    · exact absurd h3 (by decide +kernel)
    · exact absurd h3 (by decide +kernel)
    · exact absurd h3 (by decide +kernel)
    · exact absurd h3 (by decide +kernel)
  subst e
  cases h4 with
  | ptr h4 =>
    cases h4 with
    | object h4 =>
      have e : Option.some user = some t := h4
      injection e with e
      exact e.symm

theorem below_pet {K : RType Unit D → Prop} (hK : ∀ t, K t → t = user) {t : RType Unit D} (h : Flat.Below schema K b%"pet" t) : t = dog := by
  obtain ⟨t0, g, h1, h2, h3, h4⟩ := h
  have e := hK t0 h1
  subst e
  have e : g = field b%"pet" 4 (.interfaceRef b%"Animal") := by
    simp only [user, List.mem_cons, List.not_mem_nil, or_false] at h2
    rcases h2 with rfl | rfl | rfl | rfl | rfl | rfl | rfl
    · exact absurd h3 (by decide +kernel)
    · exact absurd h3 (by decide +kernel)
    · exact absurd h3 (by decide +kernel)
    · exact absurd h3 (by decide +kernel)
    · rfl
    · exact absurd h3 (by decide +kernel)
    · exact absurd h3 (by decide +kernel)
  subst e
  cases h4 with
  | interface h5 h6 h7 =>
    have e : Option.some [(⟨b%"Dog", b%"main", b%"Dog"⟩ : Impl)] = some _ := h5
    injection e with e
    subst e
    rw [List.mem_singleton] at h6
    subst h6
    have e : Option.some dog = some t := h7
    injection e with e
    exact e.symm

theorem is_user {t : RType Unit D} (h : Flat.IsType schema t ∧ t.typeName = b%"User") : t = user := by
  obtain ⟨rfl | rfl | ⟨n, h⟩, h2⟩ := h
  · rfl
  · exact absurd h2 (by decide +kernel)
  · have h : (if b%"User" = n then some user else if b%"Dog" = n then some dog else none) = some t := by
      rw [← h]
      unfold lookup schema
      simp only [List.find?_cons, List.find?_nil]
      by_cases h1 : b%"User" = n
      · simp [h1]
      · by_cases h3 : b%"Dog" = n <;> simp [h1, h3]
    split at h
    · injection h with h; exact h.symm
    · split at h
      · injection h with h; subst h; exact absurd h2 (by decide +kernel)
      · cases h

theorem nestedFlat : Flat.Flatten schema (Flat.Root schema opNested) opNested.sels opFlat.sels := by
  have hroot : ∀ t, Flat.Root schema opNested t → t = user := fun _ h => h
  refine .always (sub' := [f b%"name"]) (fun t ht => by rw [hroot t ht]; rfl) (.field Iff.rfl .nil .nil) ?_
  refine .field (by simp) ?_ (.field (by simp) ?_ (.spread .nil))
  · refine .field Iff.rfl .nil (.never (fun t ht => ?_) ?_)
    · have e := below_friend hroot ht
      subst e
      decide +kernel
    · refine .always (sub' := [f b%"nope", f b%"name"]) (rest' := []) (fun t ht => ?_) ?_ .nil
      · have e := below_friend hroot ht
        subst e
        rfl
      · refine .always (sub' := [f b%"nope"]) (rest' := [f b%"name"]) (fun t ht => ?_) (.field Iff.rfl .nil .nil) (.field Iff.rfl .nil .nil)
        have e := below_friend hroot ht
        subst e
        rfl
  · refine .always (sub' := [f b%"sound"]) (rest' := []) (fun t ht => ?_) (.field Iff.rfl .nil .nil) .nil
    have e := below_pet hroot ht
    subst e
    rfl

theorem nestedFlatMore : Flat.FlattenFrags schema [nestedMore] [flatMore] := by
  refine .cons (.field (by simp) ?_ .nil) .nil
  refine .always (sub' := [f b%"name"]) (rest' := []) (fun t ht => ?_) (.field Iff.rfl .nil .nil) .nil
  have e := below_friend (fun t h => is_user h) ht
  subst e
  rfl

/-- C92 applies to these two requests, -/
example (w : World) (r : R World (Bytes × List ReqErr)) : Answers schema env w reqNested r ↔ Answers schema env w reqFlat r :=
  C92_flatten_partial schema env HasType w reqNested reqFlat _ _ opNested opFlat servesNested servesFlat wellTyped (fits (by decide +kernel))
    rfl rfl rfl rfl rfl nestedFlatMore nestedFlat r

/-- which are answered with an error, that stops the rest. -/
example : (ask 300 reqNested).map (·.2) = some (1, 0) ∧ (ask 300 reqFlat).map (·.2) = some (1, 0) := by decide +kernel

/-- A type condition that decides something may not be dropped: not every object is a `User`. -/
example : ¬ Flat.Flatten schema (fun t => t = user ∨ t = dog) [.inline b%"User" [] [f b%"name"]] [f b%"name"] := by
  have key : ∀ (K : RType Unit D → Prop) a b, Flat.Flatten schema K a b → K user → K dog → a = [.inline b%"User" [] [f b%"name"]] →
      b ≠ [f b%"name"] := by
    intro K a b h hu hd ha
    cases h with
    | always h1 _ _ =>
      injection ha with ha
      injection ha with ha
      have := h1 dog hd
      rw [ha] at this
      exact absurd this (by decide +kernel)
    | never h1 _ =>
      injection ha with ha
      injection ha with ha
      have := h1 user hu
      rw [ha] at this
      exact absurd rfl this
    | inline _ _ => intro h; injection h with h; cases h
    | _ => cases ha
  exact fun h => key _ _ _ h (Or.inl rfl) (Or.inr rfl) rfl rfl

end Demo
end Yarql
