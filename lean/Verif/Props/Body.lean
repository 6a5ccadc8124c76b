import Verif.Model.Body
import Verif.Props.Strings
import Verif.Props.Lookup

/-!
# C87: response bodies

What `HandleRequest` returns is, when it returns, the response of `Model/Http.lean` (`C87_body_when_returned`).  Bodies of
batches and of refused requests stay as they are for ever (`C87_own_bodies_stay`); any other body lies in the schema's own
buffer and is overwritten by the schema's next request (`C87_next_request_overwrites`), but never by requests of other copies,
however these are interleaved (`C87_copies_do_not_interfere`).
-/

namespace Yarql
namespace Body
open Buffer Http

/-! ### Specification -/

/-- The execution of requests without memory: the response is the bytes that are written. -/
def Env.plain {W : Type} (env : Env W) : Http.Env W where
  parse := env.parse
  render := env.render
  resolve := fun w r => ((env.resolve w r).1, ((env.resolve w r).2.1.map (·.1)).flatten, (env.resolve w r).2.2)

/-- the state after requests, without memory -/
def Env.after {W : Type} (env : Env W) (w : W) (rs : List Http) : W := rs.foldl (fun w r => (Http.handleRequest env.plain w r).1) w

/-- The schema after `Parse`. -/
def St.ready {W : Type} (w : W) : St W := { St.new w with parsed := true }

/-- The body of this request is written by `Resolve` directly: neither refused nor a batch. -/
def Single {W : Type} (env : Env W) (r : Http) (req : Req) : Prop := ∀ st : St W, handleRequest env st r = single env st req

/-! ### Proofs -/

variable {W : Type}

def Ok (st : St W) : Prop := Buffer.Ok (st.heap, st.result) ∧ 16384 ≤ (st.heap.array st.result.arr).length ∧ st.parsed = true

theorem foldl_put_push (cs : List (Bytes × Nat)) : ∀ t : Bytes, (cs.map (fun c => Write.push c.1 c.2)).foldl put t = t ++ (cs.map (·.1)).flatten := by
  induction cs with
  | nil => simp
  | cons c cs ih => intro t; simp [put, ih]

theorem text_push (cs : List (Bytes × Nat)) : text (cs.map (fun c => Write.push c.1 c.2)) = (cs.map (·.1)).flatten := by
  rw [text_eq, foldl_put_push]; simp

theorem fits_push (cs : List (Bytes × Nat)) (cap : Nat) (h : (cs.map (·.1)).flatten.length ≤ cap) :
    Buffer.Fits cap (cs.map (fun c => Write.push c.1 c.2)) := by
  intro p hp
  obtain ⟨n, rfl⟩ : ∃ n, p = (cs.take n).map (fun c => Write.push c.1 c.2) :=
    ⟨p.length, by rw [List.prefix_iff_eq_take.1 hp]; simp [List.map_take]⟩
  rw [text_push]
  refine Nat.le_trans ?_ h
  rw [← List.take_append_drop n cs, List.map_append, List.flatten_append, List.length_append]
  simp

/-- an array is only replaced by a larger one -/
theorem step_cap (m : Heap × Slice) (h : Buffer.Ok m) (bs : Bytes) (extra : Nat) :
    (m.1.array m.2.arr).length ≤ ((Buffer.step m (.push bs extra)).1.array (Buffer.step m (.push bs extra)).2.arr).length := by
  obtain ⟨ha, hl⟩ := h
  simp only [Buffer.step]
  split
  · rename_i hfit
    dsimp only
    rw [array_set_same _ _ _ ha, overwrite_length _ _ _ hfit]
    exact Nat.le_refl _
  · dsimp only
    rw [array_snoc_new]
    simp only [Heap.read, List.length_append, List.length_take, List.length_replicate]
    omega

theorem steps_cap (cs : List (Bytes × Nat)) : ∀ m : Heap × Slice, Buffer.Ok m →
    (m.1.array m.2.arr).length ≤ (((cs.map (fun c => Write.push c.1 c.2)).foldl Buffer.step m).1.array
      ((cs.map (fun c => Write.push c.1 c.2)).foldl Buffer.step m).2.arr).length := by
  induction cs with
  | nil => intro m _; exact Nat.le_refl _
  | cons c cs ih =>
    intro m h
    simp only [List.map_cons, List.foldl_cons]
    exact Nat.le_trans (step_cap m h _ _) (ih _ (step_spec m h _).1)

/-- the part of the memory that a request leaves alone -/
def Keeps (st st' : St W) : Prop := st.heap.length ≤ st'.heap.length ∧
  ∀ a, a < st.heap.length → a ≠ st.result.arr → a ≠ st'.result.arr ∧ st'.heap.array a = st.heap.array a

theorem Keeps.refl (st : St W) : Keeps st st := ⟨Nat.le_refl _, fun _ _ h => ⟨h, rfl⟩⟩

theorem Keeps.trans {a b c : St W} (h1 : Keeps a b) (h2 : Keeps b c) : Keeps a c := by
  refine ⟨Nat.le_trans h1.1 h2.1, fun x hx hn => ?_⟩
  obtain ⟨p1, p2⟩ := h1.2 x hx hn
  obtain ⟨q1, q2⟩ := h2.2 x (Nat.lt_of_lt_of_le hx h1.1) p1
  exact ⟨q1, by rw [q2, p2]⟩

theorem resolve_spec (env : Env W) (st : St W) (h : Ok st) (req : Req) :
    Ok (resolve env st req).1 ∧ Keeps st (resolve env st req).1 ∧
      ((resolve env st req).1.world, (resolve env st req).1.heap.read (resolve env st req).1.result, (resolve env st req).2) =
        env.plain.resolve st.world req := by
  obtain ⟨o, c, p⟩ := h
  unfold resolve
  rw [if_pos p]
  obtain ⟨o', r, l, k⟩ := request_spec (st.heap, st.result) o ((env.resolve st.world req).2.1.map (fun c => .push c.1 c.2))
  refine ⟨⟨o', ?_, p⟩, ⟨l, k⟩, ?_⟩
  · exact Nat.le_trans c (steps_cap _ _ (ok_reset _ o))
  · dsimp only [Env.plain]
    rw [show (request (st.heap, st.result) ((env.resolve st.world req).2.1.map (fun c => Write.push c.1 c.2))).1.read _ = _ from r, text_push]

theorem alloc_spec (st : St W) (h : Ok st) (b : Bytes) :
    Ok (alloc st b).1 ∧ Keeps st (alloc st b).1 ∧ (alloc st b).1.heap.read (alloc st b).2 = b ∧
      (alloc st b).2.arr < (alloc st b).1.heap.length ∧ (alloc st b).2.arr ≠ (alloc st b).1.result.arr ∧ (alloc st b).1.world = st.world := by
  obtain ⟨⟨ha, hl⟩, c, p⟩ := h
  dsimp only at ha hl
  refine ⟨⟨⟨?_, ?_⟩, ?_, p⟩, ⟨?_, ?_⟩, ?_, ?_, ?_, rfl⟩
  · simp [alloc]; omega
  · simp only [alloc]; rw [array_snoc_old _ _ _ ha]; exact hl
  · simp only [alloc]; rw [array_snoc_old _ _ _ ha]; exact c
  · simp [alloc]
  · intro a h1 h2; exact ⟨h2, array_snoc_old _ _ _ h1⟩
  · simp only [alloc, Heap.read, array_snoc_new]; exact List.take_length
  · simp [alloc]
  · simp only [alloc]; omega

theorem getBodyData_eq (env : Env W) (j : J) : env.getBodyData j = Http.getBodyData env.plain j := by
  unfold Env.getBodyData Http.getBodyData bodyVariables
  rfl

theorem batch_spec (env : Env W) (items : List J) : ∀ (st : St W) (response : Bytes) (errs : List Bytes), Ok st →
    Ok (batchLoop env st response errs items).1 ∧ Keeps st (batchLoop env st response errs items).1 ∧
      ((batchLoop env st response errs items).1.world, (batchLoop env st response errs items).2) =
        Http.batchLoop env.plain st.world response errs items := by
  induction items with
  | nil => intro st response errs h; exact ⟨h, .refl _, rfl⟩
  | cons item items ih =>
    intro st response errs h
    unfold batchLoop Http.batchLoop
    rw [← getBodyData_eq]
    dsimp only
    cases env.getBodyData item with
    | error e => exact ih _ _ _ h
    | ok req =>
      dsimp only
      obtain ⟨o, k, e⟩ := resolve_spec env st h req
      obtain ⟨o2, k2, e2⟩ := ih (resolve env st req).1
        ((if response.length > 1 then response ++ [c%','] else response) ++ (resolve env st req).1.heap.read (resolve env st req).1.result)
        (errs ++ (resolve env st req).2) o
      refine ⟨o2, k.trans k2, ?_⟩
      rw [e2]
      show _ = Http.batchLoop env.plain (env.plain.resolve st.world req).1
        ((if response.length > 1 then response ++ [c%','] else response) ++ (env.plain.resolve st.world req).2.1)
        (errs ++ (env.plain.resolve st.world req).2.2) items
      rw [← e]

/-- the slice lies in memory that no later request writes -/
def Own (st : St W) (s : Slice) : Prop := s.arr < st.heap.length ∧ s.arr ≠ st.result.arr

theorem refuse_spec (env : Env W) (st : St W) (h : Ok st) (msg : Bytes) :
    Ok (refuse st msg).1 ∧ Keeps st (refuse st msg).1 ∧ Own (refuse st msg).1 (refuse st msg).2.1 ∧
      ((refuse st msg).1.world, (refuse st msg).1.heap.read (refuse st msg).2.1, (refuse st msg).2.2) = (st.world, errRes msg) := by
  obtain ⟨o, k, r, l, n, w⟩ := alloc_spec st h (errRes msg).1
  refine ⟨o, k, ⟨l, n⟩, ?_⟩
  show ((alloc st (errRes msg).1).1.world, (alloc st (errRes msg).1).1.heap.read (alloc st (errRes msg).1).2, (errRes msg).2) = _
  rw [r, w]

theorem body_spec (env : Env W) (st : St W) (h : Ok st) (body : Bytes) :
    Ok (handleBody env st body).1 ∧ Keeps st (handleBody env st body).1 ∧
      (Own (handleBody env st body).1 (handleBody env st body).2.1 ∨ ∃ req, ∀ st' : St W, handleBody env st' body = single env st' req) ∧
      ((handleBody env st body).1.world, (handleBody env st body).1.heap.read (handleBody env st body).2.1, (handleBody env st body).2.2) =
        Http.handleBody env.plain st.world body := by
  by_cases hb : (body.length == 0) = true
  · have e1 : ∀ st' : St W, handleBody env st' body = refuse st' b%"empty body" := fun st' => by unfold handleBody; rw [if_pos hb]
    have e2 : Http.handleBody env.plain st.world body = (st.world, errRes b%"empty body") := by unfold Http.handleBody; rw [if_pos hb]
    obtain ⟨o, k, w, e⟩ := refuse_spec env st h b%"empty body"
    rw [e1, e2]
    exact ⟨o, k, .inl w, e⟩
  · have f1 : ∀ st' : St W, handleBody env st' body = match env.parse body with
        | none => refuse st' b%"invalid json body"
        | some (.arr items) =>
          let r := batchLoop env st' b%"[" [] items
          ((alloc r.1 (r.2.1 ++ b%"]")).1, (alloc r.1 (r.2.1 ++ b%"]")).2, r.2.2)
        | some v =>
          match env.getBodyData v with
          | .error e => refuse st' e
          | .ok req => single env st' req := fun st' => by unfold handleBody; rw [if_neg hb]; rfl
    have f2 : Http.handleBody env.plain st.world body = match env.parse body with
        | none => (st.world, errRes b%"invalid json body")
        | some (.arr items) =>
          ((Http.batchLoop env.plain st.world b%"[" [] items).1, (Http.batchLoop env.plain st.world b%"[" [] items).2.1 ++ b%"]",
            (Http.batchLoop env.plain st.world b%"[" [] items).2.2)
        | some v =>
          match Http.getBodyData env.plain v with
          | .error e => (st.world, errRes e)
          | .ok req => env.plain.resolve st.world req := by unfold Http.handleBody; rw [if_neg hb]; rfl
    rw [f2]
    have done : ∀ v, env.parse body = some v → (∀ items, v ≠ .arr items) →
        (∀ st' : St W, handleBody env st' body = match env.getBodyData v with
          | .error e => refuse st' e
          | .ok req => single env st' req) →
        Ok (handleBody env st body).1 ∧ Keeps st (handleBody env st body).1 ∧
        (Own (handleBody env st body).1 (handleBody env st body).2.1 ∨ ∃ req, ∀ st' : St W, handleBody env st' body = single env st' req) ∧
        ((handleBody env st body).1.world, (handleBody env st body).1.heap.read (handleBody env st body).2.1, (handleBody env st body).2.2) =
          match Http.getBodyData env.plain v with
          | .error e => (st.world, errRes e)
          | .ok req => env.plain.resolve st.world req := by
      intro v _ _ g
      rw [← getBodyData_eq]
      cases hg : env.getBodyData v with
      | error e =>
        rw [hg] at g
        obtain ⟨o, k, w, e⟩ := refuse_spec env st h e
        rw [g]
        exact ⟨o, k, .inl w, e⟩
      | ok req =>
        rw [hg] at g
        obtain ⟨o, k, e⟩ := resolve_spec env st h req
        rw [g]
        exact ⟨o, k, .inr ⟨req, g⟩, e⟩
    cases hp : env.parse body with
    | none =>
      rw [hp] at f1
      obtain ⟨o, k, w, e⟩ := refuse_spec env st h b%"invalid json body"
      rw [f1]
      exact ⟨o, k, .inl w, e⟩
    | some v =>
      rw [hp] at f1
      cases v with
      | arr items =>
        obtain ⟨o, k, e⟩ := batch_spec env items st b%"[" [] h
        obtain ⟨o2, k2, r, l, n, w⟩ := alloc_spec _ o ((batchLoop env st b%"[" [] items).2.1 ++ b%"]")
        rw [f1]
        dsimp only
        refine ⟨o2, k.trans k2, .inl ⟨l, n⟩, ?_⟩
        rw [r, w, ← e]
      | null => exact done _ hp (by simp) f1
      | bool b => exact done _ hp (by simp) f1
      | num b => exact done _ hp (by simp) f1
      | str b => exact done _ hp (by simp) f1
      | obj b => exact done _ hp (by simp) f1

theorem handle_spec (env : Env W) (st : St W) (h : Ok st) (r : Http) :
    Ok (handleRequest env st r).1 ∧ Keeps st (handleRequest env st r).1 ∧
      (Own (handleRequest env st r).1 (handleRequest env st r).2.1 ∨ ∃ req, Single env r req) ∧
      ((handleRequest env st r).1.world, (handleRequest env st r).1.heap.read (handleRequest env st r).2.1, (handleRequest env st r).2.2) =
        Http.handleRequest env.plain st.world r := by
  by_cases h1 : (r.contentType == b%"application/json" ||
      ((r.contentType == b%"text/plain" || r.contentType == b%"multipart/form-data") && toUpper r.method != b%"GET")) = true
  · by_cases h2 : (r.contentType == b%"multipart/form-data") = true
    · cases hf : r.formField with
      | error e =>
        have e1 : ∀ st' : St W, handleRequest env st' r = refuse st' e := fun st' => by
          unfold handleRequest; dsimp only; rw [if_pos h1, if_pos h2, hf]
        have e2 : Http.handleRequest env.plain st.world r = (st.world, errRes e) := by
          unfold Http.handleRequest; dsimp only; rw [if_pos h1, if_pos h2, hf]
        obtain ⟨o, k, w, e⟩ := refuse_spec env st h e
        rw [e1, e2]
        exact ⟨o, k, .inl w, e⟩
      | ok v =>
        have e1 : ∀ st' : St W, handleRequest env st' r = handleBody env st' v := fun st' => by
          unfold handleRequest; dsimp only; rw [if_pos h1, if_pos h2, hf]
        have e2 : Http.handleRequest env.plain st.world r = Http.handleBody env.plain st.world v := by
          unfold Http.handleRequest; dsimp only; rw [if_pos h1, if_pos h2, hf]
        obtain ⟨o, k, w, e⟩ := body_spec env st h v
        unfold Single
        simp only [e1, e2]
        exact ⟨o, k, w, e⟩
    · have e1 : ∀ st' : St W, handleRequest env st' r = handleBody env st' r.body := fun st' => by
        unfold handleRequest; dsimp only; rw [if_pos h1, if_neg h2]
      have e2 : Http.handleRequest env.plain st.world r = Http.handleBody env.plain st.world r.body := by
        unfold Http.handleRequest; dsimp only; rw [if_pos h1, if_neg h2]
      obtain ⟨o, k, w, e⟩ := body_spec env st h r.body
      unfold Single
      simp only [e1, e2]
      exact ⟨o, k, w, e⟩
  · have e1 : ∀ st' : St W, handleRequest env st' r =
        single env st' ⟨r.urlQuery b%"query", r.urlQuery b%"variables", r.urlQuery b%"operationName"⟩ := fun st' => by
      unfold handleRequest; dsimp only; rw [if_neg h1]
    have e2 : Http.handleRequest env.plain st.world r =
        env.plain.resolve st.world ⟨r.urlQuery b%"query", r.urlQuery b%"variables", r.urlQuery b%"operationName"⟩ := by
      unfold Http.handleRequest; dsimp only; rw [if_neg h1]
    obtain ⟨o, k, e⟩ := resolve_spec env st h ⟨r.urlQuery b%"query", r.urlQuery b%"variables", r.urlQuery b%"operationName"⟩
    rw [e1, e2]
    exact ⟨o, k, .inr ⟨_, e1⟩, e⟩

theorem ok_ready (w : W) : Ok (St.ready w) := by
  have h : Heap.array [List.replicate 16384 (0 : UInt8)] 0 = List.replicate 16384 0 := rfl
  have hl : (Heap.array [List.replicate 16384 (0 : UInt8)] 0).length = 16384 := by rw [h, List.length_replicate]
  exact ⟨⟨Nat.zero_lt_one, Nat.le_of_eq hl.symm⟩, Nat.le_of_eq hl.symm, rfl⟩

theorem overwrite_twice (a : Bytes) (n : Nat) (b c : Bytes) (h : n + b.length + c.length ≤ a.length) :
    overwrite (overwrite a n b) (n + b.length) c = overwrite a n (b ++ c) := by
  have e : (overwrite a n b).take (n + b.length) = a.take n ++ b := take_overwrite a n b (by omega)
  unfold overwrite at e ⊢
  rw [e]
  have hl : (a.take n ++ b).length = n + b.length := by simp; omega
  have hd : (a.take n ++ b ++ a.drop (n + b.length)).drop (n + b.length + c.length) = a.drop (n + (b ++ c).length) := by
    rw [List.drop_append, List.drop_of_length_le (by rw [hl]; omega), hl, List.nil_append, List.drop_drop]
    congr 1
    simp only [List.length_append]
    omega
  rw [hd, List.append_assoc (a.take n)]

/-- the array after writes that fit -/
theorem pushes_array (cs : List (Bytes × Nat)) : ∀ (heap : Heap) (s : Slice), s.arr < heap.length →
    s.len + (cs.map (·.1)).flatten.length ≤ (heap.array s.arr).length →
    (((cs.map (fun c => Write.push c.1 c.2)).foldl Buffer.step (heap, s)).1.array s.arr = overwrite (heap.array s.arr) s.len (cs.map (·.1)).flatten) := by
  induction cs with
  | nil => intro heap s _ _; simp [overwrite]
  | cons c cs ih =>
    intro heap s ha hl
    simp only [List.map_cons, List.flatten_cons, List.length_append] at hl
    simp only [List.map_cons, List.foldl_cons, List.flatten_cons]
    have hfit : s.len + c.1.length ≤ (heap.array s.arr).length := by omega
    rw [show Buffer.step (heap, s) (.push c.1 c.2) = (heap.set s.arr (overwrite (heap.array s.arr) s.len c.1), { s with len := s.len + c.1.length }) from by
      simp only [Buffer.step]; rw [if_pos hfit]]
    have e := array_set_same heap s.arr (overwrite (heap.array s.arr) s.len c.1) ha
    have := ih (heap.set s.arr (overwrite (heap.array s.arr) s.len c.1)) { s with len := s.len + c.1.length } (by simpa using ha) (by
      dsimp only; rw [e, overwrite_length _ _ _ hfit]; omega)
    dsimp only at this
    rw [this, e, overwrite_twice _ _ _ _ (by omega)]

/-- a slice that was read before and after its array was overwritten from the start -/
theorem read_overwritten (a t : Bytes) (n : Nat) (h : n ≤ a.length) :
    (overwrite a 0 t).take n = (t ++ (a.take n).drop t.length).take (a.take n).length := by
  have hl : (a.take n).length = n := by simp [h]
  rw [hl]
  simp only [overwrite, List.take_zero, List.nil_append, Nat.zero_add]
  rw [List.take_append, List.take_append]
  congr 1
  rw [List.drop_take, List.take_take, Nat.min_self]

theorem run_ok (env : Env W) (rs : List Http) : ∀ (st : St W), Ok st →
    Ok (run env st rs) ∧ Keeps st (run env st rs) ∧ (run env st rs).world = env.after st.world rs := by
  induction rs with
  | nil => intro st h; exact ⟨h, .refl _, rfl⟩
  | cons r rs ih =>
    intro st h
    obtain ⟨o, k, -, e⟩ := handle_spec env st h r
    obtain ⟨o2, k2, e2⟩ := ih _ o
    refine ⟨o2, k.trans k2, ?_⟩
    show (run env (handleRequest env st r).1 rs).world = _
    rw [e2, show env.after st.world (r :: rs) = env.after (Http.handleRequest env.plain st.world r).1 rs from rfl, ← e]

/-! ### The theorems -/

/-- **C87** (when it is returned). After every history of requests, the slice that `HandleRequest` returns reads as the response of this
request, the errors are its errors; nothing of earlier responses is left. -/
theorem C87_body_when_returned (env : Env W) (w : W) (rs : List Http) (r : Http) :
    let x := handleRequest env (run env (St.ready w) rs) r
    (x.1.world, x.1.heap.read x.2.1, x.2.2) = Http.handleRequest env.plain (env.after w rs) r := by
  obtain ⟨o, -, e⟩ := run_ok env rs _ (ok_ready w)
  intro x
  rw [show env.after w rs = env.after (St.ready w).world rs from rfl, ← e]
  exact (handle_spec env _ o r).2.2.2

/-- **C87** (batches and refused requests). The body of a request that is not executed as a single request never changes, whatever requests
follow. -/
theorem C87_own_bodies_stay (env : Env W) (w : W) (rs : List Http) (r : Http) (more : List Http) (h : ¬ ∃ req, Single env r req) :
    let x := handleRequest env (run env (St.ready w) rs) r
    (run env x.1 more).heap.read x.2.1 = x.1.heap.read x.2.1 := by
  obtain ⟨o, -, -⟩ := run_ok env rs _ (ok_ready w)
  obtain ⟨o1, -, own, -⟩ := handle_spec env _ o r
  intro x
  rcases own with own | own
  · obtain ⟨-, k, -⟩ := run_ok env more _ o1
    simp only [Heap.read]
    rw [(k.2 _ own.1 own.2).2]
  · exact absurd own h

/-- **C87 is false for single requests.** After every history, the body of a single request is overwritten by the next single request whose
response has at most 16384 bytes: it then begins with that response, cut to the old length. -/
theorem C87_next_request_overwrites (env : Env W) (w : W) (rs : List Http) (r1 r2 : Http) (q1 q2 : Req) (h1 : Single env r1 q1)
    (h2 : Single env r2 q2) :
    let x1 := handleRequest env (run env (St.ready w) rs) r1
    let x2 := handleRequest env x1.1 r2
    let old := x1.1.heap.read x1.2.1
    let new := x2.1.heap.read x2.2.1
    new.length ≤ 16384 → x2.1.heap.read x1.2.1 = (new ++ old.drop new.length).take old.length := by
  intro x1 x2 old new hl
  obtain ⟨o, -, -⟩ := run_ok env rs _ (ok_ready w)
  obtain ⟨o1, -, -, -⟩ := handle_spec env _ o r1
  have e1 : x1 = single env (run env (St.ready w) rs) q1 := h1 _
  have e2 : x2 = single env x1.1 q2 := h2 _
  have s1 : x1.2.1 = x1.1.result := by rw [e1]; rfl
  have o1 : Ok x1.1 := o1
  obtain ⟨oo, hc, hp⟩ := o1
  have hnew : new = ((env.resolve x1.1.world q2).2.1.map (·.1)).flatten := by
    have := (resolve_spec env x1.1 ⟨oo, hc, hp⟩ q2).2.2
    show x2.1.heap.read x2.2.1 = _
    rw [e2]
    exact congrArg (fun y => y.2.1) this
  have hheap : x2.1.heap = (request (x1.1.heap, x1.1.result) ((env.resolve x1.1.world q2).2.1.map (fun c => .push c.1 c.2))).1 := by
    rw [e2]
    show (resolve env x1.1 q2).1.heap = _
    unfold resolve
    rw [if_pos hp]
  have hold : old = (x1.1.heap.array x1.1.result.arr).take x1.1.result.len := by
    show x1.1.heap.read x1.2.1 = _
    rw [s1]
    rfl
  have harr := pushes_array (env.resolve x1.1.world q2).2.1 x1.1.heap { x1.1.result with len := 0 } oo.1 (by
    dsimp only
    rw [← hnew]
    omega)
  dsimp only at harr
  rw [← hnew] at harr
  rw [hold, ← read_overwritten _ _ _ oo.2, s1]
  simp only [Heap.read]
  rw [hheap]
  exact congrArg (List.take x1.1.result.len) harr

/-! ### Copies -/

/-- each schema has an array of its own -/
structure Apart (w : World) : Prop where
  ok : ∀ (i : Nat) (s : Slice), w.results[i]? = some s → Buffer.Ok (w.heap, s)
  ne : ∀ (i j : Nat) (s t : Slice), w.results[i]? = some s → w.results[j]? = some t → i ≠ j → s.arr ≠ t.arr

theorem apart_new : Apart World.new := by
  have h : Heap.array [List.replicate 16384 (0 : UInt8)] 0 = List.replicate 16384 0 := rfl
  have hl : (Heap.array [List.replicate 16384 (0 : UInt8)] 0).length = 16384 := by rw [h, List.length_replicate]
  constructor
  · intro i s hs
    cases i with
    | zero => cases hs; exact ⟨Nat.zero_lt_one, Nat.le_of_eq hl.symm⟩
    | succ i => cases hs
  · intro i j s t hs ht hne
    cases i with
    | zero => cases j with
      | zero => exact absurd rfl hne
      | succ j => cases ht
    | succ i => cases hs

/-- One step: the schemas stay apart, and schemas that did not take it are not touched. -/
theorem step_apart {w : World} (h : Apart w) (e : Event) :
    Apart (w.step e) ∧ w.results.length ≤ (w.step e).results.length ∧
      ∀ (i : Nat) (s : Slice), w.results[i]? = some s → e.of i = false → (w.step e).results[i]? = some s ∧ (w.step e).heap.array s.arr = w.heap.array s.arr := by
  cases e with
  | begin j =>
    simp only [World.step]
    cases hj : w.results[j]? with
    | none => exact ⟨h, Nat.le_refl _, fun i s hs _ => ⟨hs, rfl⟩⟩
    | some t =>
      have hlt : j < w.results.length := (List.getElem?_eq_some_iff.1 hj).1
      dsimp only
      have get : ∀ (i : Nat) (s : Slice), (w.results.set j { t with len := 0 })[i]? = some s → ∃ s0, w.results[i]? = some s0 ∧ s.arr = s0.arr ∧ s.len ≤ s0.len := by
        intro i s hs
        by_cases hij : j = i
        · subst hij
          rw [List.getElem?_set_self hlt] at hs
          cases hs
          exact ⟨t, hj, rfl, Nat.zero_le _⟩
        · rw [List.getElem?_set_ne hij] at hs
          exact ⟨s, hs, rfl, Nat.le_refl _⟩
      refine ⟨⟨?_, ?_⟩, by simp, ?_⟩
      · intro i s hs
        obtain ⟨s0, h0, e1, e2⟩ := get i s hs
        obtain ⟨p1, p2⟩ := h.ok i s0 h0
        exact ⟨by rw [e1]; exact p1, by rw [e1]; exact Nat.le_trans e2 p2⟩
      · intro i k s u hs hu hne
        obtain ⟨s0, h0, e1, -⟩ := get i s hs
        obtain ⟨u0, g0, e2, -⟩ := get k u hu
        rw [e1, e2]
        exact h.ne i k s0 u0 h0 g0 hne
      · intro i s hs hof
        have hij : j ≠ i := by
          intro hij; subst hij; simp [Event.of] at hof
        exact ⟨by rw [List.getElem?_set_ne hij]; exact hs, rfl⟩
  | append j bs extra =>
    simp only [World.step]
    cases hj : w.results[j]? with
    | none => exact ⟨h, Nat.le_refl _, fun i s hs _ => ⟨hs, rfl⟩⟩
    | some t =>
      have hlt : j < w.results.length := (List.getElem?_eq_some_iff.1 hj).1
      obtain ⟨ok2, -, len2, keep⟩ := step_spec (w.heap, t) (h.ok j t hj) (.push bs extra)
      have wide := step_arr (w.heap, t) (h.ok j t hj) (.push bs extra)
      dsimp only
      generalize Buffer.step (w.heap, t) (.push bs extra) = m at ok2 len2 keep wide ⊢
      dsimp only at len2 keep wide ⊢
      have old : ∀ (i : Nat) (s : Slice), w.results[i]? = some s → i ≠ j → s.arr ≠ m.2.arr ∧ m.1.array s.arr = w.heap.array s.arr := by
        intro i s hs hij
        exact keep s.arr (h.ok i s hs).1 (h.ne i j s t hs hj hij)
      have get : ∀ (i : Nat) (s : Slice), (w.results.set j m.2)[i]? = some s → (i = j ∧ s = m.2) ∨ (i ≠ j ∧ w.results[i]? = some s) := by
        intro i s hs
        by_cases hij : j = i
        · subst hij
          rw [List.getElem?_set_self hlt] at hs
          cases hs
          exact .inl ⟨rfl, rfl⟩
        · rw [List.getElem?_set_ne hij] at hs
          exact .inr ⟨fun h => hij h.symm, hs⟩
      refine ⟨⟨?_, ?_⟩, by simp, ?_⟩
      · intro i s hs
        rcases get i s hs with ⟨rfl, rfl⟩ | ⟨hij, h0⟩
        · exact ok2
        · obtain ⟨p1, p2⟩ := h.ok i s h0
          refine ⟨Nat.lt_of_lt_of_le p1 len2, ?_⟩
          dsimp only
          rw [(old i s h0 hij).2]
          exact p2
      · intro i k s u hs hu hne
        rcases get i s hs with ⟨rfl, rfl⟩ | ⟨hij, h0⟩ <;> rcases get k u hu with ⟨rfl, rfl⟩ | ⟨hkj, g0⟩
        · exact absurd rfl hne
        · exact (old k u g0 hkj).1.symm
        · exact (old i s h0 hij).1
        · exact h.ne i k s u h0 g0 hne
      · intro i s hs hof
        have hij : j ≠ i := by
          intro hij; subst hij; simp [Event.of] at hof
        exact ⟨by rw [List.getElem?_set_ne hij]; exact hs, (old i s hs (Ne.symm hij)).2⟩
  | copy j =>
    simp only [World.step]
    cases hj : w.results[j]? with
    | none => exact ⟨h, Nat.le_refl _, fun i s hs _ => ⟨hs, rfl⟩⟩
    | some t =>
      dsimp only
      have get : ∀ (i : Nat) (s : Slice), (w.results ++ [(⟨w.heap.length, t.len⟩ : Slice)])[i]? = some s →
          (i = w.results.length ∧ s = ⟨w.heap.length, t.len⟩) ∨ (i < w.results.length ∧ w.results[i]? = some s) := by
        intro i s hs
        by_cases hi : i < w.results.length
        · rw [List.getElem?_append_left hi] at hs
          exact .inr ⟨hi, hs⟩
        · rw [List.getElem?_append_right (by omega)] at hs
          by_cases h0 : i - w.results.length = 0
          · rw [h0] at hs
            exact .inl ⟨by omega, by simpa using hs.symm⟩
          · rw [List.getElem?_eq_none (by simp; omega)] at hs
            cases hs
      have old : ∀ (i : Nat) (s : Slice), w.results[i]? = some s → s.arr < w.heap.length := fun i s hs => (h.ok i s hs).1
      refine ⟨⟨?_, ?_⟩, by simp, ?_⟩
      · intro i s hs
        rcases get i s hs with ⟨-, rfl⟩ | ⟨-, h0⟩
        · refine ⟨by simp, ?_⟩
          dsimp only
          rw [array_snoc_new]
          simp
        · obtain ⟨p1, p2⟩ := h.ok i s h0
          refine ⟨by simp at p1 ⊢; omega, ?_⟩
          dsimp only
          rw [array_snoc_old _ _ _ p1]
          exact p2
      · intro i k s u hs hu hne
        rcases get i s hs with ⟨i1, rfl⟩ | ⟨-, h0⟩ <;> rcases get k u hu with ⟨k1, rfl⟩ | ⟨-, g0⟩
        · omega
        · have := old k u g0; dsimp only; omega
        · have := old i s h0; dsimp only; omega
        · exact h.ne i k s u h0 g0 hne
      · intro i s hs _
        exact ⟨by rw [List.getElem?_append_left (List.getElem?_eq_some_iff.1 hs).1]; exact hs, array_snoc_old _ _ _ (old i s hs)⟩
  | other b =>
    refine ⟨⟨?_, h.ne⟩, Nat.le_refl _, fun i s hs _ => ⟨hs, array_snoc_old _ _ _ (h.ok i s hs).1⟩⟩
    intro i s hs
    obtain ⟨p1, p2⟩ := h.ok i s hs
    refine ⟨?_, ?_⟩
    · have p1 : s.arr < w.heap.length := p1
      simp only [World.step, List.length_append]; omega
    · simp only [World.step]; rw [array_snoc_old _ _ _ p1]; exact p2

theorem run_apart (es : List Event) : ∀ {w : World}, Apart w →
    Apart (w.run es) ∧ ∀ (i : Nat) (s : Slice), w.results[i]? = some s → (∀ e ∈ es, e.of i = false) →
      (w.run es).results[i]? = some s ∧ (w.run es).heap.array s.arr = w.heap.array s.arr := by
  induction es with
  | nil => intro w h; exact ⟨h, fun i s hs _ => ⟨hs, rfl⟩⟩
  | cons e es ih =>
    intro w h
    obtain ⟨h1, -, k1⟩ := step_apart h e
    obtain ⟨h2, k2⟩ := ih h1
    refine ⟨h2, fun i s hs he => ?_⟩
    obtain ⟨a, b⟩ := k1 i s hs (he e (by simp))
    obtain ⟨c, d⟩ := k2 i s a (fun e' h' => he e' (by simp [h']))
    exact ⟨c, d.trans b⟩

/-- **C87** (copies). In a program with any number of copies of a schema, whatever happened before: the response in the buffer of schema `i`
does not change while only other schemas write their responses, in any interleaving of their single appends, or are copied. -/
theorem C87_copies_do_not_interfere (before after : List Event) (i : Nat) (s : Slice) (hs : (World.new.run before).results[i]? = some s)
    (h : ∀ e ∈ after, e.of i = false) :
    ((World.new.run before).run after).results[i]? = some s ∧
      ((World.new.run before).run after).heap.read s = (World.new.run before).heap.read s := by
  obtain ⟨h1, -⟩ := run_apart before apart_new
  obtain ⟨a, b⟩ := (run_apart after h1).2 i s hs h
  exact ⟨a, by simp only [Heap.read]; rw [b]⟩

/-! ### Two requests -/

namespace Demo
open Yarql.Demo (noStack request)

/-- the schema of `Props/Lookup.lean`, answering the requests of the resolver model; the response is appended at once -/
def env : Env Unit where
  parse := fun _ => none
  render := fun _ => []
  resolve := fun w req =>
    match Resolver.resolve 300 ArgsDemo.schema ArgsDemo.env noStack [] (request req.query) with
    | .ok (body, es) _ => (w, [(body, 0)], es.map Resolver.ReqErr.msg)
    | _ => (w, [], [])

/-- a GET request -/
def get (q : Bytes) : Http := ⟨b%"GET", [], fun k => if k == b%"query" then q else [], .ok [], []⟩

theorem single_get (q : Bytes) : Single env (get q) ⟨q, [], []⟩ := fun _ => rfl

/-- one with an empty body, refused -/
def post : Http := ⟨b%"POST", b%"application/json", fun _ => [], .ok [], []⟩

theorem refused_post : ¬ ∃ req, Single env post req := by
  rintro ⟨req, h⟩
  have := h (St.new ())
  have h2 : (refuse (St.new ()) b%"empty body").2.1.arr = (single env (St.new ()) req).2.1.arr := by rw [← this]; rfl
  exact absurd h2 (by show (1 : Nat) ≠ 0; decide)

theorem answers : (Http.handleRequest env.plain () (get b%"{aa:color}")).2.1 = b%"{\"data\":{\"aa\":\"BLUE\"}}" ∧
    (Http.handleRequest env.plain () (get b%"{bb:color}")).2.1 = b%"{\"data\":{\"bb\":\"BLUE\"}}" := by
  decide +kernel

/-- **C87 is false.** The body returned for `{aa:color}` reads as the response to `{bb:color}` once the schema has answered that. -/
theorem C87_refuted :
    let x1 := handleRequest env (St.ready ()) (get b%"{aa:color}")
    let x2 := handleRequest env x1.1 (get b%"{bb:color}")
    x1.1.heap.read x1.2.1 = b%"{\"data\":{\"aa\":\"BLUE\"}}" ∧ x2.1.heap.read x1.2.1 = b%"{\"data\":{\"bb\":\"BLUE\"}}" := by
  intro x1 x2
  have e1 : x1.1.heap.read x1.2.1 = b%"{\"data\":{\"aa\":\"BLUE\"}}" := by
    rw [← answers.1]
    exact congrArg (fun y => y.2.1) (C87_body_when_returned env () [] (get b%"{aa:color}"))
  have e2 : x2.1.heap.read x2.2.1 = b%"{\"data\":{\"bb\":\"BLUE\"}}" := by
    rw [← answers.2]
    exact congrArg (fun y => y.2.1) (C87_body_when_returned env () [get b%"{aa:color}"] (get b%"{bb:color}"))
  refine ⟨e1, ?_⟩
  have := C87_next_request_overwrites env () [] _ _ _ _ (single_get b%"{aa:color}") (single_get b%"{bb:color}")
  have := this (by
    show (x2.1.heap.read x2.2.1).length ≤ 16384
    rw [e2]; decide)
  rw [show x2.1.heap.read x1.2.1 = _ from this]
  show ((x2.1.heap.read x2.2.1) ++ (x1.1.heap.read x1.2.1).drop (x2.1.heap.read x2.2.1).length).take (x1.1.heap.read x1.2.1).length = _
  rw [e1, e2]
  decide

/-- **Before `Parse`** the body of every single request is 16384 NUL bytes. -/
theorem C87_not_parsed (q : Bytes) :
    let x := handleRequest env (St.new ()) (get q)
    x.1.heap.read x.2.1 = List.replicate 16384 0 ∧ x.2.2 = [b%"invalid setup"] := by
  refine ⟨?_, rfl⟩
  show (List.replicate 16384 (0 : UInt8)).take 16384 = _
  exact List.take_of_length_le (by rw [List.length_replicate]; exact Nat.le_refl _)

/-- two copies write their responses at the same time; the response of the first schema stays -/
example (before : List Event) (s : Slice) (hs : (World.new.run before).results[0]? = some s) :=
  C87_copies_do_not_interfere before [.copy 0, .begin 1, .begin 2, .append 1 b%"{" 0, .append 2 b%"{}" 9, .append 1 b%"}" 0] 0 s hs (by decide)

end Demo
end Body
end Yarql
