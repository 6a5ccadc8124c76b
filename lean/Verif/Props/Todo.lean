import Verif.Model.Todo
import Verif.Spec.TodoApp
import Verif.Props.Strings

/-!
# C86: the example backend keeps its todos

Against the store of `Spec/TodoApp.lean`: within a request all functions of the example do what a client expects, after
every history (`C86_request_partial`); over several requests they do if no title is updated (`C86_history_partial`);
a title that is updated is replaced by bytes of the next request (`C86_updated_title_is_lost`, `C86_refuted`).
-/

namespace Yarql
namespace TodoApp
open Buffer TodoSpec

/-! ### How the program is looked at -/

/-- a todo, with the title that is seen now -/
def Todo.view (h : Heap) (t : Todo) : Item := ⟨t.id, t.title.read h, t.done⟩

/-- the todos of the program, with the titles that are seen now -/
def App.store (a : App) : Store := ⟨a.idx, a.todos.map (Todo.view a.mem.1)⟩

/-- what is asked: the title of a call is what the query has at that place of its bytecode -/
def Call.action (code : Bytes) : Call → Action
  | .todos => .todos
  | .todo id => .todo id
  | .create off len => .create ((code.drop off).take len)
  | .update id title done => .update id (title.map (fun p => (code.drop p.1).take p.2)) done
  | .delete id => .delete id

/-- what is answered: the resolver reads the returned todos before the next request -/
def Result.answer (h : Heap) : Result → Answer
  | .list l => .list (l.map (Todo.view h))
  | .one t => .one (t.view h)
  | .nothing => .nothing
  | .notFound id => .notFound id

/-- the title lies within the bytecode -/
def Call.Inside (code : Bytes) : Call → Prop
  | .create off len => off + len ≤ code.length
  | .update _ (some (off, len)) _ => off + len ≤ code.length
  | _ => True

def Call.creates : Call → Nat
  | .create _ _ => 1
  | _ => 0

def Req.creates (r : Req) : Nat := (r.cs.map Call.creates).sum

/-- the titles of a request lie within its bytecode -/
def Req.Inside (r : Req) : Prop := ∀ c ∈ r.cs, c.Inside (text r.ws)

/-- Requests as the resolver makes them, too few to use up the numbers of `uint`. -/
def Fine (hist : List Req) : Prop := (∀ r ∈ hist, r.Inside) ∧ 3 + (hist.map Req.creates).sum < 2 ^ 64

/-! ### Proofs -/

structure Inv (a : App) : Prop where
  ok : Ok a.mem
  nodup : (a.todos.map Todo.id).Nodup
  below : ∀ t ∈ a.todos, t.id.toNat < a.idx.toNat

theorem findTodo_none {id : UInt64} {l : List Todo} (h : findTodo id l = none) : ∀ t ∈ l, t.id ≠ id := by
  induction l with
  | nil => simp
  | cons t ts ih =>
    unfold findTodo at h
    split at h
    · cases h
    · rename_i hne
      have := ih (by simpa using h)
      intro u hu
      rcases List.mem_cons.1 hu with rfl | hu
      · exact hne
      · exact this u hu

theorem findTodo_some {id : UInt64} {l : List Todo} {i : Nat} (h : findTodo id l = some i) :
    ∃ t before after, l = before ++ t :: after ∧ before.length = i ∧ t.id = id := by
  induction l generalizing i with
  | nil => cases h
  | cons t ts ih =>
    unfold findTodo at h
    split at h
    · rename_i he
      cases h
      exact ⟨t, [], ts, rfl, rfl, he⟩
    · obtain ⟨j, hj, rfl⟩ := Option.map_eq_some_iff.1 h
      obtain ⟨u, b, a, rfl, hb, hu⟩ := ih hj
      exact ⟨u, t :: b, a, rfl, by simp [hb], hu⟩

theorem others {before after : List Todo} {t : Todo} (h : ((before ++ t :: after).map Todo.id).Nodup) (hp : Heap) :
    ∀ u ∈ before.map (Todo.view hp) ++ after.map (Todo.view hp), u.id ≠ (t.view hp).id := by
  have hn : t.id ∉ (before ++ after).map Todo.id := by
    have hperm : ((before ++ t :: after).map Todo.id).Perm (t.id :: (before ++ after).map Todo.id) := by
      simpa using (List.perm_middle (l₁ := before.map Todo.id) (l₂ := after.map Todo.id) (a := t.id))
    exact (List.nodup_cons.1 (hperm.nodup h)).1
  intro u hu he
  rw [← List.map_append] at hu
  obtain ⟨v, hv, rfl⟩ := List.mem_map.1 hu
  exact hn (List.mem_map.2 ⟨v, hv, he⟩)

theorem not_below {a : App} {id : UInt64} (h : ∀ t ∈ a.todos, t.id ≠ id) : ∀ t ∈ a.store.items, t.id ≠ id := by
  intro t ht
  obtain ⟨u, hu, rfl⟩ := List.mem_map.1 ht
  exact h u hu

theorem getElem_middle {α : Type} (b c : List α) (x : α) : (b ++ x :: c)[b.length]? = some x := by simp

theorem set_middle {α : Type} (b c : List α) (x y : α) : (b ++ x :: c).set b.length y = b ++ y :: c := by simp

theorem without_middle {α : Type} (b c : List α) (x : α) :
    (b ++ x :: c).take b.length ++ (b ++ x :: c).drop (b.length + 1) = b ++ c := by
  rw [List.take_left]
  congr 1
  induction b with
  | nil => rfl
  | cons y b ih => exact ih

/-- one call: what is expected, and the invariant -/
theorem call_spec {a : App} {code : Bytes} (hi : Inv a) (hr : a.mem.1.read a.mem.2 = code) (c : Call) (hc : c.Inside code)
    (hroom : a.idx.toNat + c.creates < 2 ^ 64) :
    Does a.store (c.action code) (call a c).1.store ((call a c).2.answer a.mem.1) ∧ Inv (call a c).1 ∧
      (call a c).1.mem = a.mem ∧ (call a c).1.idx.toNat = a.idx.toNat + c.creates := by
  have str : ∀ off len, off + len ≤ code.length → a.mem.1.readStr (a.arg off len) = (code.drop off).take len :=
    fun off len h => window _ _ _ off len hr h
  cases c with
  | todos => exact ⟨.todos, hi, rfl, rfl⟩
  | todo id =>
    simp only [call]
    cases hf : findTodo id a.todos with
    | none => exact ⟨.noTodo (not_below (findTodo_none hf)), hi, rfl, rfl⟩
    | some i =>
      obtain ⟨t, b, af, h1, rfl, rfl⟩ := findTodo_some hf
      dsimp only
      rw [h1, getElem_middle]
      refine ⟨?_, hi, rfl, rfl⟩
      exact Does.todo (s := a.store) (t := t.view a.mem.1) (List.mem_map.2 ⟨t, by rw [h1]; simp, rfl⟩)
  | create off len =>
    simp only [call, Call.creates] at hroom ⊢
    have hnext : (a.idx + 1).toNat = a.idx.toNat + 1 := by
      rw [UInt64.toNat_add]
      exact Nat.mod_eq_of_lt (by simpa using hroom)
    refine ⟨?_, ⟨hi.ok, ?_, ?_⟩, trivial, hnext⟩
    · have := Does.create (s := a.store) (title := (code.drop off).take len) (by
        intro t ht he
        obtain ⟨u, hu, rfl⟩ := List.mem_map.1 ht
        have := hi.below u hu
        have he : u.id = a.idx := he
        rw [he] at this
        omega)
      simpa [App.store, Result.answer, Todo.view, Title.read, Call.action, str off len hc] using this
    · rw [List.map_append]
      refine List.nodup_append.2 ⟨hi.nodup, by simp, ?_⟩
      intro x hx y hy
      obtain ⟨u, hu, rfl⟩ := List.mem_map.1 hx
      have := hi.below u hu
      simp only [List.map_cons, List.map_nil, List.mem_singleton] at hy
      rw [hy]
      intro he
      rw [he] at this
      omega
    · intro t ht
      dsimp only at ht ⊢
      rw [hnext]
      rcases List.mem_append.1 ht with ht | ht
      · have := hi.below t ht
        omega
      · rw [List.mem_singleton] at ht
        rw [ht]
        dsimp only
        omega
  | update id title done =>
    simp only [call]
    cases hf : findTodo id a.todos with
    | none => exact ⟨.noUpdate (not_below (findTodo_none hf)), hi, rfl, rfl⟩
    | some i =>
      obtain ⟨t, b, af, h1, rfl, rfl⟩ := findTodo_some hf
      dsimp only
      rw [h1, getElem_middle]
      dsimp only
      obtain ⟨t', ht'⟩ : ∃ t', t' = t.assign (title.map (fun p => a.arg p.1 p.2)) done := ⟨_, rfl⟩
      have hid : t'.id = t.id := by rw [ht']; cases title <;> cases done <;> rfl
      have hview : t'.view a.mem.1 = (t.view a.mem.1).changed (title.map (fun p => (code.drop p.1).take p.2)) done := by
        rw [ht']
        cases title with
        | none => cases done <;> rfl
        | some p =>
          have hs := str p.1 p.2 hc
          cases done <;> simp [Todo.view, Todo.assign, Title.read, Item.changed, hs]
      rw [← ht', set_middle]
      have hn : ((b ++ t :: af).map Todo.id).Nodup := h1 ▸ hi.nodup
      refine ⟨?_, ⟨hi.ok, ?_, ?_⟩, rfl, rfl⟩
      · have := Does.update (s := a.store) (t := t.view a.mem.1) (title := title.map (fun p => (code.drop p.1).take p.2)) (done := done)
          (before := b.map (Todo.view a.mem.1)) (after := af.map (Todo.view a.mem.1)) (by simp [App.store, h1]) (others hn _)
        rw [← hview] at this
        simpa [App.store, Result.answer, Call.action, Todo.view] using this
      · simpa [hid] using hn
      · intro u hu
        dsimp only at hu ⊢
        rcases List.mem_append.1 hu with hu | hu
        · exact hi.below u (by rw [h1]; simp [hu])
        · rcases List.mem_cons.1 hu with rfl | hu
          · rw [hid]; exact hi.below t (by rw [h1]; simp)
          · exact hi.below u (by rw [h1]; simp [hu])
  | delete id =>
    simp only [call]
    cases hf : findTodo id a.todos with
    | none => exact ⟨.noDelete (not_below (findTodo_none hf)), hi, rfl, rfl⟩
    | some i =>
      obtain ⟨t, b, af, h1, rfl, rfl⟩ := findTodo_some hf
      dsimp only
      rw [h1, without_middle]
      have hn : ((b ++ t :: af).map Todo.id).Nodup := h1 ▸ hi.nodup
      refine ⟨?_, ⟨hi.ok, ?_, ?_⟩, rfl, rfl⟩
      · have := Does.delete (s := a.store) (t := t.view a.mem.1) (before := b.map (Todo.view a.mem.1)) (after := af.map (Todo.view a.mem.1))
          (by simp [App.store, h1]) (others hn _)
        simpa [App.store, Result.answer, Call.action, Todo.view] using this
      · have hperm : ((b ++ t :: af).map Todo.id).Perm (t.id :: (b ++ af).map Todo.id) := by
          simpa using (List.perm_middle (l₁ := b.map Todo.id) (l₂ := af.map Todo.id) (a := t.id))
        exact (List.nodup_cons.1 (hperm.nodup hn)).2
      · intro u hu
        dsimp only at hu ⊢
        refine hi.below u ?_
        rw [h1]
        rcases List.mem_append.1 hu with hu | hu <;> simp [hu]

theorem calls_spec {code : Bytes} (cs : List Call) : ∀ {a : App}, Inv a → a.mem.1.read a.mem.2 = code → (∀ c ∈ cs, c.Inside code) →
    a.idx.toNat + (cs.map Call.creates).sum < 2 ^ 64 →
    DoesAll a.store (cs.map (Call.action code)) (calls a cs).1.store ((calls a cs).2.map (Result.answer a.mem.1)) ∧ Inv (calls a cs).1 ∧
      (calls a cs).1.mem = a.mem ∧ (calls a cs).1.idx.toNat = a.idx.toNat + (cs.map Call.creates).sum := by
  induction cs with
  | nil => intro a hi _ _ _; exact ⟨.nil, hi, rfl, rfl⟩
  | cons c cs ih =>
    intro a hi hr hin hroom
    simp only [List.map_cons, List.sum_cons] at hroom
    obtain ⟨d1, i1, m1, x1⟩ := call_spec hi hr c (hin c (by simp)) (by omega)
    obtain ⟨d2, i2, m2, x2⟩ := ih i1 (by rw [m1]; exact hr) (fun c hc => hin c (by simp [hc])) (by rw [x1]; omega)
    simp only [calls, List.map_cons, List.sum_cons]
    rw [m1] at d2 m2
    exact ⟨.cons d1 d2, i2, m2, by rw [x2, x1]; omega⟩

theorem parse_inv {a : App} (hi : Inv a) (ws : List Write) : Inv { a with mem := request a.mem ws } ∧
    (request a.mem ws).1.read (request a.mem ws).2 = text ws := by
  obtain ⟨o, r, -, -⟩ := request_spec a.mem hi.ok ws
  exact ⟨⟨o, hi.nodup, hi.below⟩, r⟩

theorem serve_spec {a : App} (hi : Inv a) (r : Req) (hr : r.Inside) (hroom : a.idx.toNat + r.creates < 2 ^ 64) :
    DoesAll { a with mem := request a.mem r.ws : App }.store (r.cs.map (Call.action (text r.ws))) (serve a r).1.store
      ((serve a r).2.map (Result.answer (request a.mem r.ws).1)) ∧ Inv (serve a r).1 ∧
      (serve a r).1.mem = request a.mem r.ws ∧ (serve a r).1.idx.toNat = a.idx.toNat + r.creates := by
  obtain ⟨i, t⟩ := parse_inv hi r.ws
  exact calls_spec r.cs i t hr hroom

theorem inv_start : Inv start := ⟨ok_new, by decide, by decide⟩

theorem run_spec (hist : List Req) : ∀ {a : App}, Inv a → (∀ r ∈ hist, r.Inside) → a.idx.toNat + (hist.map Req.creates).sum < 2 ^ 64 →
    Inv (run a hist) ∧ (run a hist).mem = history a.mem (hist.map Req.ws) ∧
      (run a hist).idx.toNat = a.idx.toNat + (hist.map Req.creates).sum := by
  induction hist with
  | nil => intro a hi _ _; exact ⟨hi, rfl, rfl⟩
  | cons r rs ih =>
    intro a hi hin hroom
    simp only [List.map_cons, List.sum_cons] at hroom
    obtain ⟨-, i1, m1, x1⟩ := serve_spec hi r (hin r (by simp)) (by omega)
    obtain ⟨i2, m2, x2⟩ := ih i1 (fun r hr => hin r (by simp [hr])) (by rw [x1]; omega)
    refine ⟨i2, ?_, ?_⟩
    · show (run (serve a r).1 rs).mem = _
      rw [m2, m1]
      rfl
    · show (run (serve a r).1 rs).idx.toNat = _
      rw [x2, x1]
      simp only [List.map_cons, List.sum_cons]
      omega

/-! ### The theorems -/

/-- **C86** (ids). After every history no two todos have one id. -/
theorem C86_ids_unique (hist : List Req) (h : Fine hist) : ((run start hist).todos.map Todo.id).Nodup :=
  (run_spec hist inv_start h.1 h.2).1.nodup

/-- **C86** (within a request). After every history of requests, the calls of one request change and answer the todos as the store of
`Spec/TodoApp.lean`, whose titles are values, does. -/
theorem C86_request_partial (hist : List Req) (r : Req) (h : Fine (hist ++ [r])) :
    let a : App := { run start hist with mem := request (run start hist).mem r.ws }
    DoesAll a.store (r.cs.map (Call.action (text r.ws))) (serve (run start hist) r).1.store
      ((serve (run start hist) r).2.map (Result.answer a.mem.1)) := by
  obtain ⟨h1, h2⟩ := h
  simp only [List.map_append, List.sum_append, List.map_cons, List.map_nil, List.sum_cons, List.sum_nil] at h2
  obtain ⟨i, -, x⟩ := run_spec hist inv_start (fun r hr => h1 r (by simp [hr])) (by show 3 + _ < _; omega)
  exact (serve_spec i r (h1 r (by simp)) (by rw [x]; show 3 + _ + _ < _; omega)).1

/-- the call stores no title that it was given -/
def Call.KeepsTitles : Call → Prop
  | .update _ (some _) _ => False
  | _ => True

/-- all titles are bytes of their own -/
def Owned (a : App) : Prop := ∀ t ∈ a.todos, ∃ b, t.title = .own b

theorem call_owned {a : App} (h : Owned a) (c : Call) (hc : c.KeepsTitles) : Owned (call a c).1 := by
  cases c with
  | todos => exact h
  | todo id => simp only [call]; split <;> exact h
  | create off len =>
    intro t ht
    simp only [call] at ht
    rcases List.mem_append.1 ht with ht | ht
    · exact h t ht
    · rw [List.mem_singleton] at ht
      rw [ht]
      exact ⟨_, rfl⟩
  | update id title done =>
    cases title with
    | some p => exact hc.elim
    | none =>
      simp only [call]
      cases findTodo id a.todos with
      | none => exact h
      | some i =>
        dsimp only
        cases hg : a.todos[i]? with
        | none => exact h
        | some u =>
          intro t ht
          dsimp only at ht
          rcases List.mem_or_eq_of_mem_set ht with ht | rfl
          · exact h t ht
          · obtain ⟨b, hb⟩ := h u (List.mem_of_getElem? hg)
            refine ⟨b, ?_⟩
            rw [← hb]
            cases done <;> rfl
  | delete id =>
    simp only [call]
    cases findTodo id a.todos with
    | none => exact h
    | some i =>
      intro t ht
      dsimp only at ht
      rcases List.mem_append.1 ht with ht | ht
      · exact h t (List.mem_of_mem_take ht)
      · exact h t (List.mem_of_mem_drop ht)

theorem calls_owned (cs : List Call) : ∀ {a : App}, Owned a → (∀ c ∈ cs, c.KeepsTitles) → Owned (calls a cs).1 := by
  induction cs with
  | nil => intro a h _; exact h
  | cons c cs ih => intro a h hc; exact ih (call_owned h c (hc c (by simp))) (fun c h => hc c (by simp [h]))

theorem store_parse {a : App} (h : Owned a) (ws : List Write) : { a with mem := request a.mem ws : App }.store = a.store := by
  unfold App.store
  dsimp only
  congr 1
  apply List.map_congr_left
  intro t ht
  obtain ⟨b, hb⟩ := h t ht
  simp [Todo.view, hb, Title.read]

theorem DoesAll.append {s s1 s2 : Store} {as as' : List Action} {rs rs' : List Answer} (h : DoesAll s as s1 rs) (h' : DoesAll s1 as' s2 rs') :
    DoesAll s (as ++ as') s2 (rs ++ rs') := by
  induction h with
  | nil => exact h'
  | cons d _ ih => exact .cons d (ih h')

/-- what all requests of a history are answered with, request by request -/
def answers (a : App) : List Req → List Answer
  | [] => []
  | r :: rs => (serve a r).2.map (Result.answer (request a.mem r.ws).1) ++ answers (serve a r).1 rs

/-- **C86** (over several requests). For every history of requests that update no title, the todos are at any time those of the store of
`Spec/TodoApp.lean` after the same actions, and all answers are its answers. -/
theorem C86_history_partial (hist : List Req) (h : Fine hist) (hk : ∀ r ∈ hist, ∀ c ∈ r.cs, c.KeepsTitles) :
    DoesAll start.store (hist.flatMap (fun r => r.cs.map (Call.action (text r.ws)))) (run start hist).store (answers start hist) := by
  have key : ∀ (hist : List Req) (a : App), Inv a → Owned a → (∀ r ∈ hist, r.Inside) → a.idx.toNat + (hist.map Req.creates).sum < 2 ^ 64 →
      (∀ r ∈ hist, ∀ c ∈ r.cs, c.KeepsTitles) →
      DoesAll a.store (hist.flatMap (fun r => r.cs.map (Call.action (text r.ws)))) (run a hist).store (answers a hist) := by
    intro hist
    induction hist with
    | nil => intro a _ _ _ _ _; exact .nil
    | cons r rs ih =>
      intro a hi ho hin hroom hk
      simp only [List.map_cons, List.sum_cons] at hroom
      obtain ⟨d1, i1, m1, x1⟩ := serve_spec hi r (hin r (by simp)) (by omega)
      rw [store_parse ho] at d1
      have o1 : Owned (serve a r).1 := calls_owned r.cs (a := { a with mem := request a.mem r.ws }) ho (hk r (by simp))
      have := ih _ i1 o1 (fun r hr => hin r (by simp [hr])) (by rw [x1]; omega) (fun r hr => hk r (by simp [hr]))
      rw [List.flatMap_cons]
      exact DoesAll.append d1 this
  refine key hist start inv_start ?_ h.1 h.2 hk
  intro t ht
  simp only [start, List.mem_cons, List.not_mem_nil, or_false] at ht
  rcases ht with rfl | rfl <;> exact ⟨_, rfl⟩

/-- **C86 is false for updates.** After every history, the title a todo got from an update in the last request reads, after the next request
(if that fits into the buffer and reaches that far), as the bytes which the bytecode of that *next* request has in this place. -/
theorem C86_updated_title_is_lost (hist : List Req) (r : Req) (h : Fine hist) (t : Todo) (off len : Nat)
    (ht : t.title = .shared ((run start hist).arg off len))
    (hf : Buffer.Fits ((run start hist).mem.1.array (run start hist).mem.2.arr).length r.ws) (hb : off + len ≤ (text r.ws).length) :
    (t.view (request (run start hist).mem r.ws).1).title = ((text r.ws).drop off).take len := by
  have hm := (run_spec hist inv_start h.1 h.2).2.1
  have := C85_next_request_overwrites (hist.map Req.ws) r.ws off len
  rw [show history new _ = (run start hist).mem from hm.symm] at this
  simp only [Todo.view, ht, Title.read]
  exact this hf hb

/-! ### Two requests -/

namespace Demo
open Buffer.Demo (code pushes text_pushes fits_pushes capacity)

@[irreducible] def first : Bytes := code b%"mutation{updateTodo(id:1,title:\"Alice\"){id}}"
@[irreducible] def second : Bytes := code b%"mutation{updateTodo(id:2,title:\"Chuck\"){id}}"

/-- the place of the title in the bytecode -/
def offset : Nat := 61

theorem first_code : (first.drop offset).take 5 = b%"Alice" ∧ offset + 5 ≤ first.length ∧ first.length ≤ 2048 := by
  unfold first; decide +kernel

theorem second_code : (second.drop offset).take 5 = b%"Chuck" ∧ offset + 5 ≤ second.length ∧ second.length ≤ 2048 := by
  unfold second; decide +kernel

def r1 : Req := ⟨pushes first, [.update 1 (some (offset, 5)) none]⟩
def r2 : Req := ⟨pushes second, [.update 2 (some (offset, 5)) none]⟩

theorem fine : Fine [r1, r2] := by
  refine ⟨?_, by decide⟩
  intro r hr c hc
  simp only [List.mem_cons, List.not_mem_nil, or_false] at hr
  rcases hr with rfl | rfl
  · simp only [r1, List.mem_singleton] at hc
    rw [hc]
    show offset + 5 ≤ (text (pushes first)).length
    rw [text_pushes]
    exact first_code.2.1
  · simp only [r2, List.mem_singleton] at hc
    rw [hc]
    show offset + 5 ≤ (text (pushes second)).length
    rw [text_pushes]
    exact second_code.2.1

/-- what is expected of the two requests -/
theorem expected : DoesAll start.store ([r1, r2].flatMap (fun r => r.cs.map (Call.action (text r.ws))))
    ⟨3, [⟨1, b%"Alice", false⟩, ⟨2, b%"Chuck", true⟩]⟩ [.one ⟨1, b%"Alice", false⟩, .one ⟨2, b%"Chuck", true⟩] := by
  have e1 : r1.cs.map (Call.action (text r1.ws)) = [.update 1 (some b%"Alice") none] := by
    show [Action.update 1 (some (((text (pushes first)).drop offset).take 5)) none] = _
    rw [text_pushes, first_code.1]
  have e2 : r2.cs.map (Call.action (text r2.ws)) = [.update 2 (some b%"Chuck") none] := by
    show [Action.update 2 (some (((text (pushes second)).drop offset).take 5)) none] = _
    rw [text_pushes, second_code.1]
  simp only [List.flatMap_cons, List.flatMap_nil, e1, e2, List.append_nil]
  refine .cons (Does.update (s := start.store) (t := ⟨1, b%"Get groceries", false⟩) (before := []) (after := [⟨2, b%"Make TODO app", true⟩]) rfl ?_) ?_
  · intro u hu
    simp only [List.nil_append, List.mem_singleton] at hu
    rw [hu]
    dsimp only
    decide
  · refine .cons (Does.update (s := ⟨3, [⟨1, b%"Alice", false⟩, ⟨2, b%"Make TODO app", true⟩]⟩) (t := ⟨2, b%"Make TODO app", true⟩)
      (before := [⟨1, b%"Alice", false⟩]) (after := []) rfl ?_) .nil
    intro u hu
    simp only [List.append_nil, List.mem_singleton] at hu
    rw [hu]
    dsimp only
    decide

/-- **C86 is false.** `mutation{updateTodo(id:1,title:"Alice"){id}}` sets the title of todo 1; after the next request,
`mutation{updateTodo(id:2,title:"Chuck"){id}}`, not only todo 2 has the title `Chuck`: todo 1 has it too. -/
theorem C86_refuted : (run start [r1]).store = ⟨3, [⟨1, b%"Alice", false⟩, ⟨2, b%"Make TODO app", true⟩]⟩ ∧
    (run start [r1, r2]).store = ⟨3, [⟨1, b%"Chuck", false⟩, ⟨2, b%"Chuck", true⟩]⟩ := by
  obtain ⟨k1, k2⟩ := Buffer.Demo.capacity first first_code.2.2
  have d1 := C85_string_during_request [] (pushes first) offset 5 (by rw [text_pushes]; exact first_code.2.1)
  rw [text_pushes, first_code.1] at d1
  have d2 := C85_string_during_request [pushes first] (pushes second) offset 5 (by rw [text_pushes]; exact second_code.2.1)
  rw [text_pushes, second_code.1] at d2
  have d3 := C85_next_request_overwrites [pushes first] (pushes second) offset 5
    (by
      show Buffer.Fits ((request new (pushes first)).1.array (request new (pushes first)).2.arr).length _
      rw [k1, k2]
      exact fits_pushes second _ second_code.2.2)
    (by rw [text_pushes]; exact second_code.2.1)
  rw [text_pushes, second_code.1] at d3
  constructor
  · show (⟨3, [⟨1, (request new (pushes first)).1.readStr ⟨(request new (pushes first)).2.arr, offset, 5⟩, false⟩, ⟨2, b%"Make TODO app", true⟩]⟩ : Store) = _
    rw [show (request new (pushes first)).1.readStr ⟨(request new (pushes first)).2.arr, offset, 5⟩ = b%"Alice" from d1]
  · show (⟨3, [⟨1, (request (request new (pushes first)) (pushes second)).1.readStr ⟨(request new (pushes first)).2.arr, offset, 5⟩, false⟩,
      ⟨2, (request (request new (pushes first)) (pushes second)).1.readStr ⟨(request (request new (pushes first)) (pushes second)).2.arr, offset, 5⟩, true⟩]⟩ : Store) = _
    rw [show (request (request new (pushes first)) (pushes second)).1.readStr ⟨(request new (pushes first)).2.arr, offset, 5⟩ = b%"Chuck" from d3,
      show (request (request new (pushes first)) (pushes second)).1.readStr ⟨(request (request new (pushes first)) (pushes second)).2.arr, offset, 5⟩ = b%"Chuck" from d2]

/-- Non-vacuity of `C86_history_partial`: a todo is created, another one is done, one is deleted. -/
theorem kept : Fine [⟨pushes first, [.create offset 5, .update 2 none (some false), .delete 1, .todos]⟩] ∧
    ∀ r ∈ [(⟨pushes first, [.create offset 5, .update 2 none (some false), .delete 1, .todos]⟩ : Req)], ∀ c ∈ r.cs, c.KeepsTitles := by
  refine ⟨⟨?_, by decide⟩, ?_⟩
  · intro r hr c hc
    rw [List.mem_singleton] at hr
    subst hr
    simp only [List.mem_cons, List.not_mem_nil, or_false] at hc
    rcases hc with rfl | rfl | rfl | rfl
    · show offset + 5 ≤ (text (pushes first)).length
      rw [text_pushes]
      exact first_code.2.1
    all_goals trivial
  · intro r hr c hc
    rw [List.mem_singleton] at hr
    subst hr
    simp only [List.mem_cons, List.not_mem_nil, or_false] at hc
    rcases hc with rfl | rfl | rfl | rfl <;> trivial

/-- … and what is then there. -/
theorem kept_result : (run start [⟨pushes first, [.create offset 5, .update 2 none (some false), .delete 1, .todos]⟩]).store =
    ⟨4, [⟨2, b%"Make TODO app", false⟩, ⟨3, b%"Alice", false⟩]⟩ := by
  have d1 := C85_string_during_request [] (pushes first) offset 5 (by rw [text_pushes]; exact first_code.2.1)
  rw [text_pushes, first_code.1] at d1
  show (⟨4, [⟨2, b%"Make TODO app", false⟩, ⟨3, (request new (pushes first)).1.readStr ⟨(request new (pushes first)).2.arr, offset, 5⟩, false⟩]⟩ : Store) = _
  rw [show (request new (pushes first)).1.readStr ⟨(request new (pushes first)).2.arr, offset, 5⟩ = b%"Alice" from d1]

end Demo

end TodoApp
end Yarql
