import Verif.Model.Buffer
import Verif.Model.Parser

/-!
# C85: string arguments a function keeps

A function gets its string arguments as Go strings; Go programs rely on strings being immutable.  In yarql they are
windows on the bytecode buffer of the schema.  The theorems: during its own request such a string is right
(`C85_string_during_request`), for every history of requests before it; the next request replaces its bytes by
whatever that request's bytecode has at the same place (`C85_next_request_overwrites`) unless the buffer had to grow;
and once the buffer has grown it stays as it is for ever (`C85_string_after_growth`).
-/

namespace Yarql
namespace Buffer

/-! ### Specification -/

/-- The bytecode a sequence of writes produces, on a plain list. -/
def text (ws : List Write) : Bytes :=
  ws.foldl (fun t w => match w with
    | .push bs _ => t ++ bs
    | .set i b => t.set i b
    | .cut n => t.take n) []

/-- The bytecode never gets longer than `cap` while the request is parsed. -/
def Fits (cap : Nat) (ws : List Write) : Prop := ∀ p, p <+: ws → (text p).length ≤ cap

/-! ### Proofs -/

/-- a slice within an existing array -/
def Ok (m : Heap × Slice) : Prop := m.2.arr < m.1.length ∧ m.2.len ≤ (m.1.array m.2.arr).length

theorem array_set_same (h : Heap) (a : Nat) (x : Bytes) (ha : a < h.length) :
    Heap.array (h.set a x) a = x := by
  simp [Heap.array, List.getD, ha]

theorem array_set_ne (h : Heap) (a b : Nat) (x : Bytes) (hb : a ≠ b) :
    Heap.array (h.set a x) b = h.array b := by
  simp [Heap.array, List.getD, hb]

theorem array_snoc_old (h : Heap) (x : Bytes) (a : Nat) (ha : a < h.length) :
    Heap.array (h ++ [x]) a = h.array a := by
  simp [Heap.array, List.getD, List.getElem?_append_left ha]

theorem array_snoc_new (h : Heap) (x : Bytes) : Heap.array (h ++ [x]) h.length = x := by
  simp [Heap.array, List.getD]

theorem overwrite_length (a : Bytes) (i : Nat) (bs : Bytes) (h : i + bs.length ≤ a.length) : (overwrite a i bs).length = a.length := by
  simp only [overwrite, List.length_append, List.length_take, List.length_drop]
  omega

theorem take_overwrite (a : Bytes) (i : Nat) (bs : Bytes) (h : i + bs.length ≤ a.length) :
    (overwrite a i bs).take (i + bs.length) = a.take i ++ bs := by
  unfold overwrite
  rw [List.take_append_of_le_length (by simp; omega)]
  exact List.take_of_length_le (by simp; omega)

theorem take_set_lt {α : Type} : ∀ (a : List α) (n i : Nat) (x : α),
    (a.set i x).take n = (a.take n).set i x
  | [], _, _, _ => by simp
  | _ :: _, 0, _, _ => by simp
  | _ :: _, _ + 1, 0, _ => by simp
  | _ :: a, n + 1, i + 1, x => by
      simp only [List.set_cons_succ, List.take_succ_cons, List.cons.injEq, true_and]
      exact take_set_lt a n i x

/-- one write on a plain list -/
def put (t : Bytes) : Write → Bytes
  | .push bs _ => t ++ bs
  | .set i b => t.set i b
  | .cut n => t.take n

theorem text_eq (ws : List Write) : text ws = ws.foldl put [] := by
  unfold text
  congr 1

theorem text_snoc (ws : List Write) (w : Write) : text (ws ++ [w]) = put (text ws) w := by
  simp [text_eq]

theorem read_length (m : Heap × Slice) (h : Ok m) : (m.1.read m.2).length = m.2.len := by
  simp [Heap.read, h.2]

theorem step_spec (m : Heap × Slice) (h : Ok m) (w : Write) :
    Ok (step m w) ∧ (step m w).1.read (step m w).2 = put (m.1.read m.2) w ∧ m.1.length ≤ (step m w).1.length ∧
      (∀ a, a < m.1.length → a ≠ m.2.arr → a ≠ (step m w).2.arr ∧ (step m w).1.array a = m.1.array a) := by
  obtain ⟨heap, s⟩ := m
  obtain ⟨ha, hl⟩ := h
  dsimp only at ha hl
  cases w with
  | push b extra =>
    simp only [step]
    by_cases hlt : s.len + b.length ≤ (heap.array s.arr).length
    · rw [if_pos hlt]
      refine ⟨⟨by simpa using ha, ?_⟩, ?_, by simp, ?_⟩
      · dsimp only; rw [array_set_same _ _ _ ha, overwrite_length _ _ _ hlt]; exact hlt
      · simp only [Heap.read, array_set_same _ _ _ ha, put]; exact take_overwrite _ _ _ hlt
      · intro a _ hne; exact ⟨hne, array_set_ne _ _ _ _ (Ne.symm hne)⟩
    · rw [if_neg hlt]
      refine ⟨⟨by simp, ?_⟩, ?_, by simp, ?_⟩
      · dsimp only; rw [array_snoc_new]
        simp [Heap.read, hl]
      · simp only [Heap.read, array_snoc_new, put]
        rw [List.take_append_of_le_length (by simp [hl])]
        exact List.take_of_length_le (by simp [hl])
      · intro a hal hne
        exact ⟨by dsimp only; omega, array_snoc_old _ _ _ hal⟩
  | set i b =>
    simp only [step]
    by_cases hi : i < s.len
    · rw [if_pos hi]
      refine ⟨⟨by simpa using ha, ?_⟩, ?_, by simp, ?_⟩
      · dsimp only; rw [array_set_same _ _ _ ha]; simpa using hl
      · simp only [Heap.read, array_set_same _ _ _ ha, put]; exact take_set_lt _ _ _ _
      · intro a _ hne; exact ⟨hne, array_set_ne _ _ _ _ (Ne.symm hne)⟩
    · rw [if_neg hi]
      refine ⟨⟨ha, hl⟩, ?_, by simp, fun a _ hne => ⟨hne, rfl⟩⟩
      simp only [put, Heap.read]
      rw [List.set_eq_of_length_le]
      simp; omega
  | cut n =>
    simp only [step]
    by_cases hn : n ≤ s.len
    · rw [if_pos hn]
      refine ⟨⟨ha, by dsimp only; omega⟩, ?_, by simp, fun a _ hne => ⟨hne, rfl⟩⟩
      simp only [Heap.read, put, List.take_take]
      rw [Nat.min_eq_left hn]
    · rw [if_neg hn]
      refine ⟨⟨ha, hl⟩, ?_, by simp, fun a _ hne => ⟨hne, rfl⟩⟩
      simp only [put, Heap.read, List.take_take]
      rw [Nat.min_eq_right (by omega)]

theorem steps_spec (m : Heap × Slice) (h : Ok m) (ws : List Write) :
    Ok (ws.foldl step m) ∧ (ws.foldl step m).1.read (ws.foldl step m).2 = ws.foldl put (m.1.read m.2) ∧
      m.1.length ≤ (ws.foldl step m).1.length ∧
      (∀ a, a < m.1.length → a ≠ m.2.arr →
        a ≠ (ws.foldl step m).2.arr ∧ (ws.foldl step m).1.array a = m.1.array a) := by
  induction ws generalizing m with
  | nil => exact ⟨h, rfl, Nat.le_refl _, fun a _ hne => ⟨hne, rfl⟩⟩
  | cons w ws ih =>
    obtain ⟨o1, r1, l1, k1⟩ := step_spec m h w
    obtain ⟨o2, r2, l2, k2⟩ := ih (step m w) o1
    simp only [List.foldl_cons]
    refine ⟨o2, by rw [r2, r1], by omega, ?_⟩
    intro a ha hne
    obtain ⟨q1, q2⟩ := k1 a ha hne
    obtain ⟨p1, p2⟩ := k2 a (by omega) q1
    exact ⟨p1, by rw [p2, q2]⟩

theorem ok_reset (m : Heap × Slice) (h : Ok m) : Ok (m.1, { m.2 with len := 0 }) := ⟨h.1, Nat.zero_le _⟩

theorem request_spec (m : Heap × Slice) (h : Ok m) (ws : List Write) :
    Ok (request m ws) ∧ (request m ws).1.read (request m ws).2 = text ws ∧
      m.1.length ≤ (request m ws).1.length ∧
      (∀ a, a < m.1.length → a ≠ m.2.arr → a ≠ (request m ws).2.arr ∧ (request m ws).1.array a = m.1.array a) := by
  obtain ⟨o, r, l, k⟩ := steps_spec _ (ok_reset m h) ws
  refine ⟨o, ?_, l, k⟩
  rw [text_eq]
  simpa [request, Heap.read] using r

theorem history_ok (m : Heap × Slice) (h : Ok m) (rs : List (List Write)) :
    Ok (history m rs) ∧ m.1.length ≤ (history m rs).1.length ∧
      (∀ a, a < m.1.length → a ≠ m.2.arr → (history m rs).1.array a = m.1.array a) := by
  induction rs generalizing m with
  | nil => exact ⟨h, Nat.le_refl _, fun _ _ _ => rfl⟩
  | cons r rs ih =>
    obtain ⟨o1, -, l1, k1⟩ := request_spec m h r
    obtain ⟨o2, l2, k2⟩ := ih _ o1
    simp only [history, List.foldl_cons] at o2 l2 k2 ⊢
    refine ⟨o2, by omega, ?_⟩
    intro a ha hne
    obtain ⟨q1, q2⟩ := k1 a ha hne
    rw [k2 a (by omega) q1, q2]

theorem ok_new : Ok new := ⟨by decide, by decide +kernel⟩

theorem fits_arr (m : Heap × Slice) (h : Ok m) (ws : List Write)
    (hf : Fits (m.1.array m.2.arr).length ws) :
    (request m ws).2.arr = m.2.arr ∧
      ((request m ws).1.array m.2.arr).length = (m.1.array m.2.arr).length := by
  have key : ∀ n (ws : List Write), ws.length = n → Fits (m.1.array m.2.arr).length ws →
      (request m ws).2.arr = m.2.arr ∧
      ((request m ws).1.array m.2.arr).length = (m.1.array m.2.arr).length := by
    intro n
    induction n with
    | zero =>
      intro ws hl _
      obtain rfl := List.length_eq_zero_iff.1 hl
      exact ⟨rfl, rfl⟩
    | succ n ih =>
      intro ws hl hf
      obtain ⟨l, w, rfl⟩ : ∃ l w, ws = l ++ [w] :=
        ⟨ws.dropLast, ws.getLast (by rintro rfl; simp at hl), (List.dropLast_concat_getLast _).symm⟩
      obtain ⟨e1, e2⟩ := ih l (by simpa using hl) (fun p hp => hf p (hp.trans (List.prefix_append _ _)))
      obtain ⟨o, r, -, -⟩ := request_spec m h l
      have hstep : request m (l ++ [w]) = step (request m l) w := by simp [request]
      rw [hstep]
      have hlen : (request m l).2.len = (text l).length := by rw [← r, read_length _ o]
      have ha : m.2.arr < (request m l).1.length := by rw [← e1]; exact o.1
      cases w with
      | push b extra =>
        have hp := hf (l ++ [.push b extra]) (List.prefix_refl _)
        rw [text_snoc] at hp
        simp only [put, List.length_append] at hp
        have hfit : (request m l).2.len + b.length ≤ ((request m l).1.array (request m l).2.arr).length := by rw [e1, e2]; omega
        simp only [step]
        rw [if_pos hfit]
        exact ⟨e1, by dsimp only; rw [e1] at hfit ⊢; rw [array_set_same _ _ _ ha, overwrite_length _ _ _ hfit, e2]⟩
      | set i b =>
        simp only [step]
        split
        · exact ⟨e1, by rw [e1, array_set_same _ _ _ ha, List.length_set, e2]⟩
        · exact ⟨e1, e2⟩
      | cut k =>
        simp only [step]
        split
        · exact ⟨e1, e2⟩
        · exact ⟨e1, e2⟩
  exact key _ ws rfl hf

theorem step_arr (m : Heap × Slice) (h : Ok m) (w : Write) :
    ((step m w).2.arr = m.2.arr ∧ ((step m w).1.array m.2.arr).length = (m.1.array m.2.arr).length) ∨
      m.1.length ≤ (step m w).2.arr := by
  have ha := h.1
  cases w with
  | push b extra =>
    simp only [step]
    split
    · rename_i hfit
      exact .inl ⟨rfl, by rw [array_set_same _ _ _ ha, overwrite_length _ _ _ hfit]⟩
    · exact .inr (Nat.le_refl _)
  | set i b =>
    simp only [step]
    split
    · exact .inl ⟨rfl, by rw [array_set_same _ _ _ ha, List.length_set]⟩
    · exact .inl ⟨rfl, rfl⟩
  | cut n =>
    simp only [step]
    split <;> exact .inl ⟨rfl, rfl⟩

theorem steps_arr (m : Heap × Slice) (h : Ok m) (ws : List Write) :
    ((ws.foldl step m).2.arr = m.2.arr ∧
        ((ws.foldl step m).1.array m.2.arr).length = (m.1.array m.2.arr).length) ∨
      m.1.length ≤ (ws.foldl step m).2.arr := by
  induction ws generalizing m with
  | nil => exact .inl ⟨rfl, rfl⟩
  | cons w ws ih =>
    obtain ⟨o1, -, l1, -⟩ := step_spec m h w
    simp only [List.foldl_cons]
    have ha := h.1
    rcases ih _ o1 with ⟨e1, e2⟩ | hge
    · rcases step_arr m h w with ⟨f1, f2⟩ | hge
      · rw [f1] at e1 e2
        exact .inl ⟨e1, e2.trans f2⟩
      · exact .inr (by omega)
    · exact .inr (by omega)

theorem window {α : Type} (a t : List α) (n off len : Nat) (h : a.take n = t) (hb : off + len ≤ t.length) :
    (a.drop off).take len = (t.drop off).take len := by
  subst h
  simp only [List.length_take] at hb
  rw [List.drop_take, List.take_take, Nat.min_eq_left (by omega)]

/-! ### The theorems -/

/-- **C85** (during the request) After any history of requests, in a request whose bytecode is `text ws`, the string a
function gets for the bytes `off … off+len` of the bytecode is exactly these bytes, whether or not the buffer had to
grow. -/
theorem C85_string_during_request (rs : List (List Write)) (ws : List Write) (off len : Nat)
    (hb : off + len ≤ (text ws).length) :
    (request (history new rs) ws).1.readStr ⟨(request (history new rs) ws).2.arr, off, len⟩ =
      ((text ws).drop off).take len := by
  obtain ⟨o, -, -⟩ := history_ok new ok_new rs
  obtain ⟨-, r, -, -⟩ := request_spec _ o ws
  exact window _ _ _ off len r hb

/-- **C85** (false afterwards) After any history of requests, a string that lies in the current buffer is changed by
the next request as soon as that request's bytecode reaches that far (and fits the buffer): it then has the bytes
which the *new* bytecode has at that place. -/
theorem C85_next_request_overwrites (rs : List (List Write)) (ws : List Write) (off len : Nat)
    (hf : Fits ((history new rs).1.array (history new rs).2.arr).length ws)
    (hb : off + len ≤ (text ws).length) :
    (request (history new rs) ws).1.readStr ⟨(history new rs).2.arr, off, len⟩ =
      ((text ws).drop off).take len := by
  obtain ⟨o, -, -⟩ := history_ok new ok_new rs
  rw [← (fits_arr _ o ws hf).1]
  exact C85_string_during_request rs ws off len hb

/-- **C85** (after growth) A string in an array that is not the current buffer any more keeps its bytes through every
further history of requests. -/
theorem C85_string_after_growth (rs more : List (List Write)) (s : Str)
    (hs : s.arr < (history new rs).1.length) (hg : s.arr ≠ (history new rs).2.arr) :
    (history (history new rs) more).1.readStr s = (history new rs).1.readStr s := by
  obtain ⟨o, -, -⟩ := history_ok new ok_new rs
  obtain ⟨-, -, k⟩ := history_ok _ o more
  simp only [Heap.readStr]
  rw [k s.arr hs hg]

/-- **C85** (when the buffer grows) A request whose bytecode is longer than the buffer moves to a new array. -/
theorem C85_growth (rs : List (List Write)) (ws : List Write)
    (hl : ((history new rs).1.array (history new rs).2.arr).length < (text ws).length) :
    (request (history new rs) ws).2.arr ≠ (history new rs).2.arr := by
  obtain ⟨o, -, -⟩ := history_ok new ok_new rs
  obtain ⟨o2, r, -, -⟩ := request_spec _ o ws
  intro he
  rcases steps_arr _ (ok_reset _ o) ws with ⟨-, e2⟩ | hge
  · have hlen := read_length _ o2
    rw [r] at hlen
    have := o2.2
    rw [← hlen, he] at this
    simp only [request] at this
    simp only at e2
    omega
  · have := o.1
    simp only [request] at he
    simp only at hge
    omega

/-! ### A mutation that stores a name -/

namespace Demo

/-- the bytecode of the parser model for a query -/
def code (q : Bytes) : Bytes :=
  match Parser.parseQuery q none with
  | .ok _ s => s.res
  | _ => []

@[irreducible] def first : Bytes := code b%"mutation{add(name:\"Alice\")}"
@[irreducible] def second : Bytes := code b%"mutation{add(name:\"Chuck\")}"

/-- the place of the argument in the bytecode -/
def offset : Nat := 41

/-- writes that produce a bytecode, one append per byte -/
def pushes (bc : Bytes) : List Write := bc.map (fun b => .push [b] 0)

theorem put_pushes (bc t : Bytes) : (pushes bc).foldl put t = t ++ bc := by
  induction bc generalizing t with
  | nil => simp [pushes]
  | cons b bc ih =>
    simp only [pushes, List.map_cons, List.foldl_cons] at ih ⊢
    rw [ih]
    simp [put]

theorem text_pushes (bc : Bytes) : text (pushes bc) = bc := by rw [text_eq, put_pushes]; simp

theorem fits_pushes (bc : Bytes) (cap : Nat) (h : bc.length ≤ cap) : Fits cap (pushes bc) := by
  intro p hp
  obtain ⟨n, rfl⟩ : ∃ n, p = pushes (bc.take n) := by
    refine ⟨p.length, ?_⟩
    have := List.prefix_iff_eq_take.1 hp
    rw [this]
    simp [pushes, List.map_take]
  rw [text_pushes]
  simp; omega

theorem first_code : (first.drop offset).take 5 = b%"Alice" ∧ offset + 5 ≤ first.length ∧ first.length ≤ 2048 := by
  unfold first; decide +kernel

theorem second_code : (second.drop offset).take 5 = b%"Chuck" ∧ offset + 5 ≤ second.length ∧ second.length ≤ 2048 := by
  unfold second; decide +kernel

theorem capacity (bc : Bytes) (h : bc.length ≤ 2048) :
    (request new (pushes bc)).2.arr = 0 ∧ ((request new (pushes bc)).1.array 0).length = 2048 := by
  have := fits_arr new ok_new (pushes bc) (by
    have : (new.1.array new.2.arr).length = 2048 := by decide +kernel
    rw [this]; exact fits_pushes bc _ h)
  have hc : (new.1.array new.2.arr).length = 2048 := by decide +kernel
  exact ⟨this.1, this.2.trans hc⟩

/-- **C85 is false.** On a new schema, `mutation{add(name:"Alice")}` calls its function with a string that reads
`Alice`; after the next request, `mutation{add(name:"Chuck")}`, the first function's string reads `Chuck`. -/
theorem C85_refuted :
    let m₁ := request new (pushes first)
    let m₂ := request m₁ (pushes second)
    let name : Str := ⟨m₁.2.arr, offset, 5⟩
    m₁.1.readStr name = b%"Alice" ∧ m₂.1.readStr name = b%"Chuck" := by
  intro m₁ m₂ name
  have hl := first_code.2.2
  obtain ⟨c1, c2⟩ := capacity first hl
  constructor
  · have := C85_string_during_request [] (pushes first) offset 5 (by rw [text_pushes]; exact first_code.2.1)
    rw [text_pushes, first_code.1] at this
    exact this
  · have := C85_next_request_overwrites [pushes first] (pushes second) offset 5
      (by
        show Fits ((request new (pushes first)).1.array (request new (pushes first)).2.arr).length _
        rw [c1, c2]; exact fits_pushes second _ second_code.2.2)
      (by rw [text_pushes]; exact second_code.2.1)
    rw [text_pushes, second_code.1] at this
    exact this

/-- Non-vacuity of `C85_string_after_growth`: whatever has a bytecode of more than 2048 bytes grows the buffer of a
new schema; strings of the requests before it then lie in an array that is not the current one. -/
theorem grows (bc : Bytes) (h : 2048 < bc.length) :
    0 < (history new [pushes bc]).1.length ∧ (0 : Nat) ≠ (history new [pushes bc]).2.arr := by
  have hc : (new.1.array new.2.arr).length = 2048 := by decide +kernel
  have := C85_growth [] (pushes bc) (by
    show (new.1.array new.2.arr).length < _
    rw [hc, text_pushes]; exact h)
  exact ⟨Nat.lt_of_lt_of_le (by decide) (history_ok new ok_new [pushes bc]).2.1, this.symm⟩

end Demo

end Buffer
end Yarql
