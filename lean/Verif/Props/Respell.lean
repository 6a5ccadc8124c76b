import Verif.Props.Respond
import Verif.Proofs.Respell
import Verif.Props.Arguments

/-!
# The same query, spelled differently: C83 (the order of arguments does not matter), C84 (aliases only rename keys)
-/

namespace Yarql
open Doc Resolver Eval Typed Yarql.Bind

section
variable {F V W : Type} [DecidableEq F]

theorem respelled_fits {renamed permuted : Prop} {schema : RSchema F V} {frags frags' : List Fragment} {o o' : Operation}
    (hfr : RespelledFrags renamed permuted frags frags') (hs : Respelled renamed permuted o.sels o'.sels)
    (hf : Fits schema frags o) (hsh : Shallow schema frags o) : Fits schema frags' o' ∧ Shallow schema frags' o' := by
  obtain ⟨n, hn, hd⟩ := hsh
  refine ⟨?_, n, hn.respelled hfr hs, hd⟩
  obtain ⟨k, hk, ⟨m, hm, h⟩ | ⟨-, -, h, -⟩⟩ := hf
  · exact ⟨k, hk, Or.inl ⟨m, hm.respelled hfr hs, h⟩⟩
  · refine ⟨k, hk, Or.inl ⟨n, hn.respelled hfr hs, Nat.le_trans (Nat.mul_le_mul_right _ ?_) h⟩⟩
    rcases hd with hd | ⟨-, hd⟩ <;> omega

theorem respelled (renamed permuted : Prop) (schema : RSchema F V) (env : Env F V W) (T : Obj F → V → Prop) (w w' : W) (req req' : Request)
    (d d' : List Def) (o o' : Operation) (fuel : Nat) (vals : UInt8 → V) (body : Bytes)
    (hs : Serves req d o) (hs' : Serves req' d' o') (ht : WellTyped schema env T) (hf : Fits schema (fragmentsOf d) o)
    (hsh : Shallow schema (fragmentsOf d) o) (hvars : VarsOK req.vars) (hv : req'.vars = req.vars)
    (hk : o'.kind = o.kind) (hd : o'.dirs = o.dirs) (hdecl : o'.vars = o.vars)
    (hsels : Respelled renamed permuted o.sels o'.sels) (hfr : RespelledFrags renamed permuted (fragmentsOf d) (fragmentsOf d'))
    (hsep : permuted → Shows.SeparateParams schema) (hpath : renamed → Shows.PathBlind env)
    (h : resolve fuel schema env vals w req = .ok (body, []) w') :
    ∃ out mid out', body = envelope req.noMeta (print out) [] ∧ Shows.ExceptKeys renamed out mid ∧
      Shows.Operation (showCtx schema env req' d' o') w o' mid w' ∧ Shows.Same mid out' ∧
      Answers schema env w req' (.ok (envelope req'.noMeta (print out') [], []) w') := by
  obtain ⟨out, h1, h2⟩ := C16_response_mirrors_selection_partial schema env T w w' req d o fuel vals body hs ht hf h
  obtain ⟨hf', hsh'⟩ := respelled_fits hfr hsels hf hsh
  obtain ⟨mid, h3, h4⟩ := Shows.operation_respelled (showCtx schema env req d o) (fragmentsOf d') hfr hsep hpath hk hd hsels h1
  have e : Shows.withFrags (showCtx schema env req d o) (fragmentsOf d') = showCtx schema env req' d' o' := by
    unfold Shows.withFrags showCtx
    rw [hv, hdecl]
  rw [e] at h3
  obtain ⟨out', h5, h6⟩ := C16_shown_is_answered_partial schema env T w w' req' d' o' mid hs' ht hf' hsh' (by rw [hv]; exact hvars) h3
  exact ⟨out, mid, out', h2, h4, h3, h5, h6⟩

/-- **C83.** The order in which the arguments of fields and directives are written does not matter: if a request is answered without errors,
so is every request that differs from it only in the order of arguments (each name being given once), with the same data (up to
the spelling of strings) and the same effects. -/
theorem C83_argument_order_partial (schema : RSchema F V) (env : Env F V W) (T : Obj F → V → Prop) (w w' : W) (req req' : Request)
    (d d' : List Def) (o o' : Operation) (fuel : Nat) (vals : UInt8 → V) (body : Bytes)
    (hs : Serves req d o) (hs' : Serves req' d' o') (ht : WellTyped schema env T) (hf : Fits schema (fragmentsOf d) o)
    (hsh : Shallow schema (fragmentsOf d) o) (hvars : VarsOK req.vars) (hv : req'.vars = req.vars)
    (hk : o'.kind = o.kind) (hd : o'.dirs = o.dirs) (hdecl : o'.vars = o.vars)
    (hsels : Respelled False True o.sels o'.sels) (hfr : RespelledFrags False True (fragmentsOf d) (fragmentsOf d'))
    (hsep : Shows.SeparateParams schema) (h : resolve fuel schema env vals w req = .ok (body, []) w') :
    ∃ out out', body = envelope req.noMeta (print out) [] ∧ Shows.Same out out' ∧
      Answers schema env w req' (.ok (envelope req'.noMeta (print out') [], []) w') := by
  obtain ⟨out, mid, out', h1, h2, -, h3, h4⟩ := respelled False True schema env T w w' req req' d d' o o' fuel vals body hs hs' ht hf hsh hvars hv
    hk hd hdecl hsels hfr (fun _ => hsep) (fun h => h.elim) h
  have e := h2.eq
  subst e
  exact ⟨mid, out', h1, h3, h4⟩

/-- **C84.** Aliases only rename keys: if a request is answered without errors and no function asks for the path it is called at, then every
request that differs from it only in the aliases of its fields is answered without errors, with the same effects, and its data is the
same except for the keys of objects, which are those of the new selections (`Shows.Operation`). -/
theorem C84_aliases_rename_keys_partial (schema : RSchema F V) (env : Env F V W) (T : Obj F → V → Prop) (w w' : W) (req req' : Request)
    (d d' : List Def) (o o' : Operation) (fuel : Nat) (vals : UInt8 → V) (body : Bytes)
    (hs : Serves req d o) (hs' : Serves req' d' o') (ht : WellTyped schema env T) (hf : Fits schema (fragmentsOf d) o)
    (hsh : Shallow schema (fragmentsOf d) o) (hvars : VarsOK req.vars) (hv : req'.vars = req.vars)
    (hk : o'.kind = o.kind) (hd : o'.dirs = o.dirs) (hdecl : o'.vars = o.vars)
    (hsels : Respelled True False o.sels o'.sels) (hfr : RespelledFrags True False (fragmentsOf d) (fragmentsOf d'))
    (hpath : Shows.PathBlind env) (h : resolve fuel schema env vals w req = .ok (body, []) w') :
    ∃ out mid out', body = envelope req.noMeta (print out) [] ∧ Shows.ExceptKeys True out mid ∧
      Shows.Operation (showCtx schema env req' d' o') w o' mid w' ∧ Shows.Same mid out' ∧
      Answers schema env w req' (.ok (envelope req'.noMeta (print out') [], []) w') :=
  respelled True False schema env T w w' req req' d d' o o' fuel vals body hs hs' ht hf hsh hvars hv
    hk hd hdecl hsels hfr (fun h => h.elim) (fun _ => hpath) h

end

/-! ## Examples -/

namespace ArgsDemo
open Demo

theorem separate : Shows.SeparateParams schema where
  fields := by
    intro f hf
    have key : f ∈ type.fields → Shows.SeparateIn f.obj := by
      intro hm
      have sep : ∀ m ∈ [u8, sum, opt, paint, say, self], CallsMade.Separate m := by
        unfold CallsMade.Separate
        decide
      simp only [type, List.mem_cons, List.not_mem_nil, or_false] at hm
      rcases hm with rfl | rfl | rfl | rfl | rfl | rfl | rfl
      · exact ⟨sep _ (by simp), trivial⟩
      · exact ⟨sep _ (by simp), trivial⟩
      · exact ⟨sep _ (by simp), trivial⟩
      · exact ⟨sep _ (by simp), trivial⟩
      · exact ⟨sep _ (by simp), trivial⟩
      · exact ⟨sep _ (by simp), trivial⟩
      · trivial
    rcases hf with h | h | ⟨n, t, hn, h⟩
    · exact key h
    · cases h
    · simp only [schema, List.mem_cons, List.not_mem_nil, or_false] at hn
      cases hn
      exact key h
  directives := by
    intro loc table h
    cases h

def listVar : VarDef := ⟨b%"v", .list (.named b%"Int" false) false, none⟩
def inOrder : Operation := ⟨.query, [], some [listVar], [], [.field b%"sum" none [] (some [(b%"xs", .var b%"v"), (b%"y", .int b%"3")]) []]⟩
def reordered : Operation := ⟨.query, [], some [listVar], [], [.field b%"sum" none [] (some [(b%"y", .int b%"3"), (b%"xs", .var b%"v")]) []]⟩
def reqInOrder : Request := requestV b%"query($v:[Int]){sum(xs:$v,y:3)}" [(b%"v", .arr [.num b%"1", .num b%"2"])]
def reqReordered : Request := requestV b%"query($v:[Int]){sum(y:3,xs:$v)}" [(b%"v", .arr [.num b%"1", .num b%"2"])]
theorem servesInOrder : Serves reqInOrder [.op inOrder] inOrder := Check.serves (by decide +kernel) rfl
theorem servesReordered : Serves reqReordered [.op reordered] reordered := Check.serves (by decide +kernel) rfl

/-- C83 applies to these two requests, -/
example (w w' : World) (fuel : Nat) (vals : UInt8 → D) (body : Bytes) (h : resolve fuel schema env vals w reqInOrder = .ok (body, []) w') :
    ∃ out out', body = envelope false (print out) [] ∧ Shows.Same out out' ∧
      Answers schema env w reqReordered (.ok (envelope false (print out') [], []) w') :=
  C83_argument_order_partial schema env HasType w w' reqInOrder reqReordered _ _ inOrder reordered fuel vals body servesInOrder servesReordered
    wellTyped (fits (by decide +kernel)) ⟨20, Check.nestB_ok _ 40 _ _ (by decide +kernel), Or.inl (by decide)⟩ trivial rfl rfl rfl rfl
    (.field (Or.inl rfl) rfl .nil (.order trivial (List.Perm.swap _ _ _) (by decide)) .nil .nil) .nil separate h

/-- and the first is answered without errors: `sum` is called once, with both arguments. -/
example : sumOf reqInOrder = some (0, [some 1, some 2], 3) ∧ sumOf reqReordered = some (0, [some 1, some 2], 3) := by decide +kernel

end ArgsDemo

namespace Demo

/-- the same functions, not asking for paths -/
def blindEnv : Env Unit D World := { env with call := fun w f _ a => call w f [] a }

theorem blind : Shows.PathBlind blindEnv := fun _ _ _ _ _ => rfl

theorem blind_known {schema : RSchema Unit D} {inp : Input} (h : Typed.Known schema env inp) : Typed.Known schema blindEnv inp := by
  induction inp with
  | ptr e ih => exact ih h
  | slice e ih => exact ih h
  | array n e ih => exact ih h
  | _ => exact h

theorem blind_method {schema : RSchema Unit D} {m : Method Unit} (h : MethodOK schema env m) : MethodOK schema blindEnv m :=
  ⟨fun a ha => blind_known (h.known a ha), h.zero, h.slots⟩

theorem blind_wellTyped : WellTyped schema blindEnv HasType where
  inTypes := fun n d h => ⟨fun f hf => blind_known ((wellTyped.inTypes n d h).1 f hf), (wellTyped.inTypes n d h).2⟩
  array := wellTyped.array
  ptr := wellTyped.ptr
  object := wellTyped.object
  data := wellTyped.data
  enum := wellTyped.enum
  method := fun m out v h => ⟨blind_method (wellTyped.method m out v h).1, (wellTyped.method m out v h).2.1,
    fun w _ inputs => (wellTyped.method m out v h).2.2 w [] inputs⟩
  interface := wellTyped.interface
  directive := fun loc table h x hx => ⟨blind_method (wellTyped.directive loc table h x hx).1,
    fun w _ inputs => (wellTyped.directive loc table h x hx).2 w [] inputs⟩
  query := wellTyped.query
  mutation := wellTyped.mutation

def unaliased : Operation := query [f b%"name", f b%"friend" [f b%"age"], .field b%"add" none [] (some [(b%"x", .int b%"1")]) []]
def aliased : Operation := query [.field b%"n" (some b%"name") [] none [], .field b%"f" (some b%"friend") [] none [.field b%"name" (some b%"age") [] none []],
  .field b%"add" none [] (some [(b%"x", .int b%"1")]) []]
def reqUnaliased : Request := request b%"{name friend{age} add(x:1)}"
def reqAliased : Request := request b%"{n:name f:friend{name:age} add(x:1)}"
theorem servesUnaliased : Serves reqUnaliased [.op unaliased] unaliased := Check.serves (by decide +kernel) rfl
theorem servesAliased : Serves reqAliased [.op aliased] aliased := Check.serves (by decide +kernel) rfl

/-- C84 applies to these two requests, -/
example (w w' : World) (fuel : Nat) (vals : UInt8 → D) (body : Bytes) (h : resolve fuel schema blindEnv vals w reqUnaliased = .ok (body, []) w') :
    ∃ out mid out', body = envelope false (print out) [] ∧ Shows.ExceptKeys True out mid ∧
      Shows.Operation (showCtx schema blindEnv reqAliased [.op aliased] aliased) w aliased mid w' ∧ Shows.Same mid out' ∧
      Answers schema blindEnv w reqAliased (.ok (envelope false (print out') [], []) w') :=
  C84_aliases_rename_keys_partial schema blindEnv HasType w w' reqUnaliased reqAliased _ _ unaliased aliased fuel vals body servesUnaliased servesAliased
    blind_wellTyped (fits (by decide +kernel)) (shallow (by decide +kernel)) trivial rfl rfl rfl rfl
    (.field (Or.inr trivial) rfl .nil .same .nil (.field (Or.inr trivial) rfl .nil .same (.field (Or.inr trivial) rfl .nil .same .nil .nil)
      (.field (Or.inl rfl) rfl .nil .same .nil .nil))) .nil blind h

/-- and both are answered. -/
example : ask 300 reqUnaliased = some (dataOnly b%"{\"name\":\"A\\\"n\",\"friend\":{\"age\":30},\"add\":2}", 0, 1) ∧
    ask 300 reqAliased = some (dataOnly b%"{\"n\":\"A\\\"n\",\"f\":{\"name\":30},\"add\":2}", 0, 1) := by decide +kernel

end Demo
end Yarql
