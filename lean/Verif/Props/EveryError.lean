import Verif.Spec.Explained
import Verif.Props.EveryValue

/-!
# Every error of every response, and every call: C79, C80

No hypotheses about the request, the schema or the Go values.
-/

namespace Yarql
open Doc Resolver Eval Yarql.Bind
open Reveals hiding Reveals

namespace Reveals
section
variable {F V W : Type} {schema : RSchema F V} {env : Env F V W} {vars : VarsSrc} {near : Prop}

/-- all functions inside `o` are declared -/
def Declared (schema : RSchema F V) (o : Obj F) : Prop := ∀ m out, Within (.method m out) o → FieldFunction schema m

theorem declared_array {o : Obj F} (h : Declared schema (.array o)) : Declared schema o := fun m out hw => h m out (.array hw)
theorem declared_ptr {o : Obj F} (h : Declared schema (.ptr o)) : Declared schema o := fun m out hw => h m out (.ptr hw)
theorem declared_result {m : Method F} {o : Obj F} (h : Declared schema (.method m o)) : Declared schema o := fun m out hw => h m out (.result hw)
theorem declared_ref {n : Bytes} : Declared schema (.objRef n) := fun m out hw => (by cases hw)
theorem declared_field {t : RType F V} {f : RField F V} (ht : Known schema t) (hf : f ∈ t.fields) : Declared schema f.obj :=
  fun m out hw => ⟨t, f, out, ht, hf, hw⟩

theorem Calls.trans {w w1 w2 : W} (h : Calls schema env w w1) (h' : Calls schema env w1 w2) : Calls schema env w w2 := by
  induction h' with
  | none => exact h
  | call _ hc ih => exact .call ih hc

mutual
theorem reveals_calls {w o v p x es w'} (h : Reveals schema env vars near w o v p x es w') (hd : Declared schema o) : Calls schema env w w' := by
  match h with
  | .ptr _ hs => exact reveals_calls hs (declared_ptr hd)
  | .interface _ _ _ hs => exact reveals_calls hs declared_ref
  | .call (inputs := inputs) (outs := outs) (m := m) _ hi hc _ _ hs =>
    exact (Calls.call .none ⟨v, m, p, inputs, outs, .inl (hd m _ .here), hi, hc⟩).trans (reveals_calls hs (declared_result hd))
  | .cancelled (inputs := inputs) (outs := outs) (m := m) _ hi hc _ => exact Calls.call .none ⟨v, m, p, inputs, outs, .inl (hd m _ .here), hi, hc⟩
  | .object ht hm => exact members_calls hm (Or.inr (Or.inr ⟨_, ht⟩))
  | .list _ hs => exact elems_calls hs (declared_array hd)
  | .refused _ _ => exact .none
  | .undefined => exact .none
  | .nilList _ => exact .none
  | .nilPtr _ => exact .none
  | .noObject _ => exact .none
  | .scalar _ _ => exact .none
  | .enum _ _ _ _ _ => exact .none
  | .noEnum _ _ _ => exact .none
  | .time _ _ => exact .none
  | .noTime _ => exact .none
  | .noInterface _ => exact .none
  | .nilInterface _ _ => exact .none
  | .unregistered _ _ _ => exact .none
  | .nilFunc _ _ => exact .none
  | .unbound _ _ => exact .none
theorem elems_calls {o p w i vs os es w'} (h : Elems schema env vars near o p w i vs os es w') (hd : Declared schema o) : Calls schema env w w' := by
  match h with
  | .nil => exact .none
  | .cons hs hr => exact (reveals_calls hs hd).trans (elems_calls hr hd)
theorem members_calls {t v p w ms es w'} (h : Members schema env vars near t v p w ms es w') (ht : Known schema t) : Calls schema env w w' := by
  match h with
  | .nil => exact .none
  | .field hf _ _ hs hr => exact (reveals_calls hs (declared_field ht hf)).trans (members_calls hr ht)
  | .typename hr => exact members_calls hr ht
  | .noTypename hr => exact members_calls hr ht
  | .noField _ hr => exact members_calls hr ht
  | .directive (p' := p') (inputs := inputs) (outs := outs) (d := d) _ hl hd hi hc hr =>
    exact (Calls.call .none ⟨d.func, d.method, p', inputs, outs, .inr ⟨_, _, d, hl, hd, rfl, rfl⟩, hi, hc⟩).trans (members_calls hr ht)
  | .error _ _ hr => exact members_calls hr ht
end

theorem at_append {x y z : Out} {p q : List Seg} (h : At x p y) (h' : At y q z) : At x (p ++ q) z := by
  induction h with
  | here => exact h'
  | key hk _ ih => exact .key hk (ih h')
  | idx hk _ ih => exact .idx hk (ih h')

theorem located_under {x y : Out} {p q : List Seg} (h : At x p y) (h' : Located y q) : Located x (p ++ q) := by
  rcases h' with ⟨z, h'⟩ | ⟨r, k, ms, e, h'⟩
  · exact .inl ⟨z, at_append h h'⟩
  · exact .inr ⟨p ++ r, k, ms, by rw [e, List.append_assoc], at_append h h'⟩

theorem ownErrors_mem {m : Method F} {p : List Seg} {w1 : W} {outs : List V} {e : RErr} (h : e ∈ ownErrors env m p w1 outs) :
    e.path = pathJSON p ∧ Events.ownError env.errOf m w1 outs = some e.msg := by
  unfold ownErrors at h
  obtain ⟨msg, hm, rfl⟩ := List.mem_map.1 h
  exact ⟨rfl, by simpa using hm⟩

/-- the error is explained, and its path is that of `x` (at `p`) or of something in it -/
def Fine (schema : RSchema F V) (env : Env F V W) (vars : VarsSrc) (p : List Seg) (x : Out) (e : RErr) : Prop :=
  Explained schema env vars e.msg ∧ ∃ q, e.path = pathJSON (p ++ q) ∧ Located x q

theorem Fine.here {p : List Seg} {x : Out} {e : RErr} (h : Explained schema env vars e.msg) (hp : e.path = pathJSON p) : Fine schema env vars p x e :=
  ⟨h, [], by rw [List.append_nil]; exact hp, .inl ⟨x, .here⟩⟩

mutual
theorem reveals_errors {w o v p x es w'} (h : Reveals schema env vars near w o v p x es w') (hd : Declared schema o) : ∀ e ∈ es, Fine schema env vars p x e := by
  match h with
  | .ptr _ hs => exact reveals_errors hs (declared_ptr hd)
  | .interface _ _ _ hs => exact reveals_errors hs declared_ref
  | .call _ hi hc _ _ hs =>
    intro e he
    rcases List.mem_append.1 he with he | he
    · obtain ⟨h1, h2⟩ := ownErrors_mem he
      exact .here (.returned (hd _ _ .here) hc h2) h1
    · exact reveals_errors hs (declared_result hd) e he
  | .cancelled _ hi hc hx =>
    intro e he
    rcases List.mem_append.1 he with he | he
    · obtain ⟨h1, h2⟩ := ownErrors_mem he
      exact .here (.returned (hd _ _ .here) hc h2) h1
    · rw [List.mem_singleton.1 he]
      exact .here (.cancelled hx) rfl
  | .object ht hm => exact members_errors hm (Or.inr (Or.inr ⟨_, ht⟩)) (fun _ _ h => h)
  | .list _ hs =>
    intro e he
    obtain ⟨h1, k, q, y, h2, h3, h4⟩ := elems_errors hs (declared_array hd) e he
    exact ⟨h1, .idx k :: q, by rw [h3, Nat.zero_add]; simp, located_under (p := [.idx k]) (.idx h2 .here) h4⟩
  | .refused _ hr => intro e he; rw [List.mem_singleton.1 he]; exact .here (.refusal hr) rfl
  | .unbound _ hr => intro e he; rw [List.mem_singleton.1 he]; exact .here (.argument (hd _ _ .here) hr) rfl
  | .undefined => intro e he; cases he
  | .nilList _ => intro e he; cases he
  | .nilPtr _ => intro e he; cases he
  | .noObject _ => intro e he; cases he
  | .scalar _ _ => intro e he; cases he
  | .enum _ _ _ _ _ => intro e he; cases he
  | .noEnum _ _ _ => intro e he; cases he
  | .time _ _ => intro e he; cases he
  | .noTime _ => intro e he; cases he
  | .noInterface _ => intro e he; cases he
  | .nilInterface _ _ => intro e he; cases he
  | .unregistered _ _ _ => intro e he; cases he
  | .nilFunc _ _ => intro e he; cases he
theorem elems_errors {o p w i vs os es w'} (h : Elems schema env vars near o p w i vs os es w') (hd : Declared schema o) : ∀ e ∈ es,
    Explained schema env vars e.msg ∧ ∃ k q x, os[k]? = some x ∧ e.path = pathJSON (p ++ [.idx (i + k)] ++ q) ∧ Located x q := by
  match h with
  | .nil => intro e he; cases he
  | .cons hs hr =>
    intro e he
    rcases List.mem_append.1 he with he | he
    · obtain ⟨h1, q, h2, h3⟩ := reveals_errors hs hd e he
      exact ⟨h1, 0, q, _, rfl, h2, h3⟩
    · obtain ⟨h1, k, q, x, h2, h3, h4⟩ := elems_errors hr hd e he
      exact ⟨h1, k + 1, q, x, h2, by rw [h3, show i + 1 + k = i + (k + 1) by omega], h4⟩
theorem members_errors {t v p w ms es w' ms'} (h : Members schema env vars near t v p w ms es w') (ht : Known schema t)
    (hms : ∀ k x, (k, x) ∈ ms → (k, x) ∈ ms') : ∀ e ∈ es, Fine schema env vars p (.obj ms') e := by
  match h with
  | .nil => intro e he; cases he
  | .field (k := k) (out := out) hf _ _ hs hr =>
    intro e he
    rcases List.mem_append.1 he with he | he
    · obtain ⟨h1, q, h2, h3⟩ := reveals_errors hs (declared_field ht hf) e he
      refine ⟨h1, .key k :: q, by rw [h2]; simp, located_under (p := [.key k]) (.key (hms k out (List.mem_cons_self ..)) .here) h3⟩
    · exact members_errors hr ht (fun _ _ h => hms _ _ (List.mem_cons_of_mem _ h)) e he
  | .typename hr => exact members_errors hr ht (fun _ _ h => hms _ _ (List.mem_cons_of_mem _ h))
  | .noTypename (k := k) hr =>
    intro e he
    rcases List.mem_cons.1 he with he | he
    · rw [he]
      exact ⟨.refusal (by simp [refusals]), [.key k], rfl, .inl ⟨_, .key (hms k _ (List.mem_cons_self ..)) .here⟩⟩
    · exact members_errors hr ht (fun _ _ h => hms _ _ (List.mem_cons_of_mem _ h)) e he
  | .noField (k := k) hn hr =>
    intro e he
    rcases List.mem_cons.1 he with he | he
    · rw [he]
      exact ⟨.noField ht hn, [.key k], rfl, .inl ⟨_, .key (hms k _ (List.mem_cons_self ..)) .here⟩⟩
    · exact members_errors hr ht (fun _ _ h => hms _ _ (List.mem_cons_of_mem _ h)) e he
  | .directive _ _ _ _ _ hr => exact members_errors hr ht hms
  | .error hp hm hr =>
    intro e he
    rcases List.mem_cons.1 he with he | he
    · rw [he]
      rcases hp with rfl | ⟨k, rfl⟩
      · exact .here (.selection hm) rfl
      · exact ⟨.selection hm, [.key k], rfl, .inr ⟨[], k, ms', rfl, .here⟩⟩
    · exact members_errors hr ht hms e he
end

end
end Reveals

section
variable {F V W : Type} [DecidableEq F]

theorem known_root (schema : RSchema F V) (k : OpKind) : Known schema (rootOf schema k).1 := by
  cases k
  · exact Or.inl rfl
  · exact Or.inr (Or.inl rfl)
  · exact Or.inl rfl

/-- **C79.** Whatever request is answered, the world is changed by calls only, and every call is of a function that is declared in the schema,
with the inputs its signature admits (`Spec/Delivered.lean`): the context and structs of zero values, in which declared parameters are replaced
by values of their types. -/
theorem C79_every_call {fuel : Nat} {schema : RSchema F V} {env : Env F V W} {vals : UInt8 → V} {w w' : W} {req : Request} {body : Bytes}
    {es : List ReqErr} (h : resolve fuel schema env vals w req = .ok (body, es) w') : Calls schema env w w' := by
  rcases every_response h with ⟨d, o, ms, errs, -, -, -, -, -, h3⟩ | ⟨rfl, -, -⟩
  · exact members_calls (h3 False (fun h => h.elim)) (known_root _ _)
  · exact .none

/-- **C79** (recorded). If the world keeps a record of all calls, then all calls added to the record by a request are of declared functions with
inputs their signatures allow. -/
theorem C79_recorded {fuel : Nat} {schema : RSchema F V} {env : Env F V W} {vals : UInt8 → V} {w w' : W} {req : Request} {body : Bytes}
    {es : List ReqErr} (h : resolve fuel schema env vals w req = .ok (body, es) w') (record : W → List (V × List (Arg F)))
    (hr : ∀ w fn p inputs w1 outs, env.call w fn p inputs = some (w1, outs) → record w1 = record w ++ [(fn, inputs)]) :
    ∃ made, record w' = record w ++ made ∧
      ∀ fn inputs, (fn, inputs) ∈ made → ∃ m, Signature schema fn m ∧ Delivered.CalledWith env schema.enums schema.inTypes m inputs := by
  have hc := C79_every_call h
  clear h
  induction hc with
  | none => exact ⟨[], by simp, by simp⟩
  | call _ hc ih =>
    obtain ⟨made, h1, h2⟩ := ih
    obtain ⟨fn, m, p, inputs, outs, k1, k2, k3⟩ := hc
    refine ⟨made ++ [(fn, inputs)], by rw [hr _ _ _ _ _ _ k3, h1, List.append_assoc], ?_⟩
    intro fn' inputs' hm
    rcases List.mem_append.1 hm with hm | hm
    · exact h2 fn' inputs' hm
    · cases List.mem_singleton.1 hm
      exact ⟨m, k1, k2⟩

/-- **C80.** Whatever request is executed: each error has a listed explanation (`Spec/Explained.lean`), and its path is the path of a value of
the response, or a key below an object of the response.  Or nothing was executed,
for one of three reasons, which is reported. -/
theorem C80_every_error {fuel : Nat} {schema : RSchema F V} {env : Env F V W} {vals : UInt8 → V} {w w' : W} {req : Request} {body : Bytes}
    {es : List ReqErr} (h : resolve fuel schema env vals w req = .ok (body, es) w') :
    (∃ (ms : List (Bytes × Out)) (errs : List RErr), body = envelope req.noMeta (print (.obj ms)) es ∧ es = errs.map ReqErr.exec ∧
      ∀ e ∈ errs, Explained schema env req.vars e.msg ∧ ∃ p, e.path = pathJSON p ∧ Located (.obj ms) p) ∨
    (w' = w ∧ NotRun req es ∧ body = envelope req.noMeta b%"{}" es) := by
  rcases every_response_or_not_run h with ⟨d, o, ms, errs, -, -, -, h1, h2, h3⟩ | h
  · refine Or.inl ⟨ms, errs, h1, h2, fun e he => ?_⟩
    obtain ⟨k1, q, k2, k3⟩ := members_errors (h3 False (fun h => h.elim)) (known_root _ _) (fun _ _ h => h) e he
    exact ⟨k1, q, k2, k3⟩
  · exact Or.inr h

end
end Yarql
