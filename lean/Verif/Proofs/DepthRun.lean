import Verif.Proofs.RevealsRun
import Verif.Spec.Depth
import Verif.Spec.Typed
import Verif.Spec.Blame

/-!
# Objects nest at most `maxDepth` deep in every response, if the schema has no interfaces

As `Proofs/Depth.lean`, for the interpreter itself: whatever the bytecode and the Go values are.
-/

namespace Yarql
namespace Resolver
namespace DepthRun
open Yarql.Bind Eval BindQuiet RevealsRun Typed Blame Depth
open Doc (OpKind)

section
variable {F V W α β : Type} {c : Cfg F V W}

/-- a value of at most `k` levels has been written -/
def VD (k : Nat) (s s' : RS V W) : Prop :=
  s'.path = s.path ∧ ∃ out, s'.out = s.out ++ print out ∧ Depth.Within k out

/-- members of at most `k` levels have been written -/
def SD (k : Nat) (first : Bool) (s : RS V W) (a : Bool × Bool) (s' : RS V W) : Prop :=
  s'.path = s.path ∧ ∃ ms, s'.out = s.out ++ printMembers first ms ∧ (a.1 = false → a.2 = (first && ms.isEmpty)) ∧ ∀ m ∈ ms, Depth.Within k m.2

def FD (k : Nat) (comma : Bool) (s : RS V W) (a : Bool × Bool) (s' : RS V W) : Prop :=
  s'.path = s.path ∧ ∃ ms, s'.out = s.out ++ printMembers (!comma) ms ∧ a.1 = ms.isEmpty ∧ ∀ m ∈ ms, Depth.Within k m.2

theorem elems_run {k : Nat} {q : List Seg} {body : M F V W Bool}
    (hb : ∀ i s, s.path = pathText (q ++ [.idx i]) → post body c s (fun _ s' => VD k s s'))
    (start : Nat) (vs : List V) : ∀ (i : Nat) (s : RS V W), s.path = pathText q → post (elemsLoop body start i vs) c s (fun _ s' =>
      s'.path = s.path ∧ ∃ os, os.length = vs.length ∧ s'.out = s.out ++ printItems true os ∧ ∀ o ∈ os, Depth.Within k o) := by
  induction vs with
  | nil =>
    intro i s hp
    unfold elemsLoop
    exact post_pure ⟨rfl, [], rfl, by simp [printItems], by simp⟩
  | cons v vs ih =>
    intro i s hp
    unfold elemsLoop
    refine post_moves moves_setPos (fun _ n => post_getState (post_setPath (post_setGoValue (post_bind ?_))))
    dsimp only
    refine post_mono (hb i _ ?_) ?_
    · show s.path ++ c%',' :: intDigits i = _
      rw [hp, pathText_append]
      simp [pathText, segText, intDigits]
    · rintro - s1 ⟨k1, out, k3, k4⟩
      dsimp only at k1 k3
      -- behind the element
      have rest : ∀ (txt : Bytes), (txt = if vs.isEmpty then [] else [c%',']) →
          post (do setPath s.path; elemsLoop body start (i + 1) vs : M F V W Unit) c { s1 with out := s1.out ++ txt } (fun _ s' =>
            s'.path = s.path ∧ ∃ os, os.length = (v :: vs).length ∧ s'.out = s.out ++ printItems true os ∧ ∀ o ∈ os, Depth.Within k o) := by
        intro txt ht
        refine post_setPath (post_mono (ih (i + 1) _ hp) ?_)
        rintro - s2 ⟨j1, os, j3, j4, j5⟩
        dsimp only at j1 j4
        refine ⟨j1, out :: os, by simp [j3], ?_, ?_⟩
        · rw [j4, k3]
          simp only [printItems, if_true, List.nil_append, List.append_assoc]
          congr 2
          cases os with
          | nil =>
            have : vs = [] := by simpa using j3.symm
            subst this
            simp [ht, printItems]
          | cons x os =>
            have : vs.isEmpty = false := by cases vs <;> simp_all
            simp [ht, this, printItems]
        · intro o ho
          rcases List.mem_cons.1 ho with rfl | ho
          · exact k4
          · exact j5 o ho
      by_cases he : vs.isEmpty = true
      · simp only [he, Bool.not_true, Bool.false_eq_true, if_false]
        have := rest [] (by simp [he])
        rw [List.append_nil] at this
        exact this
      · simp only [he, Bool.not_false, if_true]
        exact post_write (rest [c%','] (by simp [he]))

theorem VD.leaf {k : Nat} {s s' : RS V W} (x : Out) (h1 : s'.path = s.path) (h2 : s'.out = s.out ++ print x) (h3 : Depth.Within k x) : VD k s s' :=
  ⟨h1, x, h2, h3⟩

theorem VD.null {k : Nat} {s : RS V W} {n : Nat} : VD k s { s with charNr := n, out := s.out ++ b%"null" } := ⟨rfl, .null, rfl, .null⟩

theorem VD.refused {k : Nat} {s : RS V W} {n : Nat} {es : List RErr} : VD k s { s with charNr := n, out := s.out ++ b%"null", errs := es } :=
  ⟨rfl, .null, rfl, .null⟩

theorem callAndResolve_run {k : Nat} {q : List Seg} {s : RS V W} {m : Method F} {fn : V} {next : V → Bool → M F V W Bool} (hp : s.path = pathText q)
    (hn : ∀ v b s, s.path = pathText q → post (next v b) c s (fun _ s' => VD k s s')) :
    post (callAndResolve m fn next) c s (fun _ s' => VD k s s') := by
  unfold callAndResolve
  refine post_moves moves_seekInst (fun inst n => post_bind (fun r s1 h1 => ?_))
  rcases callQlMethod_ok h1 with ⟨msg, rfl, hne, hq⟩ | ⟨outs, inputs, s2, rfl, hq, hcw, hcall, e⟩
  · exact post_pure ⟨hq.path, .missing, by rw [hq.out]; simp [print], .missing⟩
  · dsimp only
    have e1 : s1.path = s.path := by rw [e]; exact hq.path
    have e2 : s1.out = s.out := by rw [e]; exact hq.out
    refine post_moves moves_seekInst (fun inst n => post_bind (post_mono (reportMethodErr_run (q := q) (by rw [← hp]; exact e1)) ?_))
    rintro - s3 rfl
    unfold afterCall
    refine post_getCfg (post_getState ?_)
    dsimp only
    cases hx : c.env.ctxErr s1.world with
    | some msg => exact post_err (post_writeNull (post_pure ⟨e1, .null, by simp [print, e2], .null⟩))
    | none =>
      dsimp only
      cases ho : outs[m.outNr]? with
      | none => exact post_panicM
      | some x =>
        dsimp only
        refine post_mono (hn x _ _ (e1.trans hp)) ?_
        rintro - s4 ⟨k1, o, k3, k4⟩
        dsimp only at k1 k3
        exact ⟨k1.trans e1, o, by rw [k3, e2], k4⟩

variable [DecidableEq F]

structure AllD (c : Cfg F V W) (n : Nat) : Prop where
  sels : ∀ q t dept first s k, IsObject c.schema t → dept.toNat + k + 1 = c.schema.maxDepth.toNat → s.path = pathText q →
    post (resolveSelectionSet n t dept first) c s (SD k first s)
  spread : ∀ q t dept first s k, IsObject c.schema t → dept.toNat + k + 1 = c.schema.maxDepth.toNat → s.path = pathText q →
    post (resolveSpread n t dept first) c s (SD k first s)
  field : ∀ q t dept comma s k, IsObject c.schema t → dept.toNat + k + 1 = c.schema.maxDepth.toNat → s.path = pathText q →
    post (resolveField n t dept comma) c s (FD k comma s)
  data : ∀ q o dept sub s k, noInterface o = true → dept.toNat + k + 1 = c.schema.maxDepth.toNat → s.path = pathText q →
    post (resolveFieldDataValue n o dept sub) c s (fun _ s' => VD k s s')

omit [DecidableEq F] in
theorem SD.then {k : Nat} {first : Bool} {s s1 s2 : RS V W} {ms : List (Bytes × Out)} {a : Bool × Bool}
    (k1 : s1.path = s.path) (k3 : s1.out = s.out ++ printMembers first ms) (k4 : ∀ m ∈ ms, Depth.Within k m.2)
    (h : SD k (first && ms.isEmpty) s1 a s2) : SD k first s a s2 := by
  obtain ⟨j1, ms', j3, j4, j5⟩ := h
  refine ⟨j1.trans k1, ms ++ ms', by rw [j3, k3, printMembers_append, List.append_assoc], ?_, ?_⟩
  · intro h
    rw [j4 h]
    cases first <;> cases ms <;> simp
  · intro m hm
    rcases List.mem_append.1 hm with h | h
    · exact k4 m h
    · exact j5 m h

theorem sels_run (n : Nat) (ih : AllD c n) (q : List Seg) (t : RType F V) (dept : UInt8) (first : Bool) (s : RS V W) (k : Nat)
    (ht : IsObject c.schema t) (hk : dept.toNat + k + 1 = c.schema.maxDepth.toNat) (hp : s.path = pathText q) :
    post (resolveSelectionSet (n + 1) t dept first) c s (SD k first s) := by
  unfold resolveSelectionSet
  refine post_moves moves_readInst (fun inst n => ?_)
  split
  · exact post_pure ⟨rfl, [], by simp [printMembers], fun _ => by simp, by simp⟩
  · split
    · refine post_bind (post_mono (ih.field q t dept (!first) _ k ht hk hp) ?_)
      rintro ⟨skipped, crit⟩ s1 ⟨k1, ms, k3, k4, k5⟩
      dsimp only at k1 k3 k4 ⊢
      rw [Bool.not_not] at k3
      split
      · exact post_pure ⟨k1, ms, k3, fun h => (by cases h), k5⟩
      · rw [k4]
        exact post_mono (ih.sels q t dept (first && ms.isEmpty) s1 k ht hk (k1.trans hp)) (fun a s2 h => SD.then k1 k3 k5 h)
    · split
      · refine post_bind (post_mono (ih.spread q t dept first _ k ht hk hp) ?_)
        rintro ⟨crit, first'⟩ s1 ⟨k1, ms, k3, k4, k5⟩
        dsimp only at k1 k3 k4 ⊢
        split
        · exact post_pure ⟨k1, ms, k3, fun h => (by cases h), k5⟩
        · rename_i hc
          rw [k4 (by simpa using hc)]
          exact post_mono (ih.sels q t dept (first && ms.isEmpty) s1 k ht hk (k1.trans hp)) (fun a s2 h => SD.then k1 k3 k5 h)
      · exact post_moves moves_lastInst (fun _ _ => post_err (post_pure ⟨rfl, [], by simp [printMembers], fun h => (by cases h), by simp⟩))

omit [DecidableEq F] in
theorem SD.moved {k : Nat} {first : Bool} {s s' : RS V W} {a : Bool × Bool} {n : Nat} (h : SD k first s a s') : SD k first s a { s' with charNr := n } := h

theorem spread_run (n : Nat) (ih : AllD c n) (q : List Seg) (t : RType F V) (dept : UInt8) (first : Bool) (s : RS V W) (k : Nat)
    (ht : IsObject c.schema t) (hk : dept.toNat + k + 1 = c.schema.maxDepth.toNat) (hp : s.path = pathText q) :
    post (resolveSpread (n + 1) t dept first) c s (SD k first s) := by
  unfold resolveSpread
  refine post_moves moves_readInst (fun isInline _ => post_moves moves_readInst (fun dirs _ => post_moves moves_readUint32M (fun len _ =>
    post_moves moves_skipInst (fun _ _ => post_getPos (fun nameStart => post_moves moves_readToNul (fun name _ => ?_))))))
  dsimp only
  refine post_bind (fun d s1 h1 => ?_)
  obtain ⟨k1, k2, -⟩ := directives_run _ _ (q := q) (by exact hp) h1
  dsimp only at k1 k2
  have k2' : s1.out = s.out ++ printMembers first [] := by rw [k2]; simp [printMembers]
  have stop : ∀ (crit : Bool) (n : Nat), SD k first s (crit, first) { s1 with charNr := n } := fun crit n =>
    ⟨k1, [], k2', fun _ => by simp, by simp⟩
  have more : ∀ a s2, SD k first s1 a s2 → SD k first s a s2 := fun a s2 h => SD.then k1 k2' (by simp) (by simpa using h)
  rcases d with _ | _ | _
  · exact post_moves moves_setPos (fun _ n => post_pure (stop true n))
  · dsimp only
    split
    · split
      · exact post_moves moves_setPos (fun _ n => post_pure (stop false n))
      · refine post_bind (post_mono (ih.sels q t dept first s1 k ht hk (k1.trans hp)) (fun a s2 h => ?_))
        exact post_moves moves_skipInst (fun _ n => post_pure (SD.moved (more a s2 h)))
    · refine post_getCfg ?_
      split
      · refine post_err (post_pure ?_)
        exact more _ _ ⟨rfl, [], by simp [printMembers], fun h => (by cases h), by simp⟩
      · refine post_getPos (fun _ => post_moves moves_setPos (fun _ _ => post_moves moves_readToNul (fun typeName n => ?_)))
        split
        · exact post_moves moves_setPos (fun _ n => post_pure (stop false n))
        · refine post_bind (post_mono (ih.sels q t dept first _ k ht hk (k1.trans hp)) (fun a s2 h => ?_))
          exact post_moves moves_setPos (fun _ n => post_pure (SD.moved (more a s2 h)))
  · exact post_moves moves_setPos (fun _ n => post_pure (stop false n))

omit [DecidableEq F] in
theorem isField_of {schema : RSchema F V} {t : RType F V} {f : RField F V} (ht : IsObject schema t) (hm : f ∈ t.fields) : IsField schema f := by
  rcases ht with rfl | rfl | ⟨n, hn⟩
  · exact Or.inl hm
  · exact Or.inr (Or.inl hm)
  · unfold lookup at hn
    obtain ⟨e, h1, rfl⟩ := Option.map_eq_some_iff.1 hn
    exact Or.inr (Or.inr ⟨e.1, e.2, List.mem_of_find?_eq_some h1, hm⟩)

theorem field_run (hi : ∀ f, IsField c.schema f → noInterface f.obj = true) (n : Nat) (ih : AllD c n) (q : List Seg) (t : RType F V) (dept : UInt8)
    (comma : Bool) (s : RS V W) (k : Nat) (ht : IsObject c.schema t) (hk : dept.toNat + k + 1 = c.schema.maxDepth.toNat) (hp : s.path = pathText q) :
    post (resolveField (n + 1) t dept comma) c s (FD k comma s) := by
  unfold resolveField
  refine post_moves moves_readInst (fun dirs _ => post_moves moves_readUint32M (fun fieldLen _ => post_moves moves_skipInst (fun _ _ =>
    post_moves moves_readUint32M (fun nameKey _ => post_moves moves_skipInst (fun _ _ => post_getPos (fun pos => post_moves moves_readInst (fun aliasLen _ =>
    post_getPos (fun startOfAlias => post_moves moves_sliceRes (fun alias _ => post_moves moves_skipInst (fun _ _ => post_getState (post_setPath ?_)))))))))))
  refine post_moves moves_readInst (fun lenOfName _ => post_getPos (fun nameAt => post_moves moves_skipInst (fun _ _ => post_moves moves_skipInst (fun _ n0 => ?_))))
  dsimp only
  have hq : s.path ++ b%",\"" ++ alias ++ [c%'"'] = pathText (q ++ [.key alias]) := by
    rw [hp, pathText_append]
    simp [pathText, segText]
  refine post_bind (fun d s1 h1 => ?_)
  obtain ⟨k1, k2, -⟩ := directives_run _ _ (q := q ++ [.key alias]) (by exact hq) h1
  dsimp only at k1 k2
  have stop : ∀ (a : Bool) (n : Nat), FD k comma s (true, a) { s1 with path := s.path, charNr := n } := fun a n =>
    ⟨rfl, [], by simp [printMembers, k2], rfl, by simp⟩
  rcases d with _ | _ | _
  · exact post_setPath (post_moves moves_setPos (fun _ n => post_pure (stop true n)))
  · dsimp only
    -- the key
    have rest : ∀ (m : M F V W (Bool × Bool)), (∀ n, post m c { s1 with charNr := n, out := s1.out ++ ((if comma then [c%','] else []) ++ (c%'"' :: alias ++ [c%'"']) ++ [c%':']) } (FD k comma s)) →
        post (do
          if comma then write [c%',']
          writeQuoted alias
          write [c%':']
          m) c s1 (FD k comma s) := by
      intro m hm
      have hm := hm s1.charNr
      cases comma with
      | true =>
        simp only [if_true] at hm ⊢
        refine post_write (post_writeQuoted (post_write ?_))
        simpa only [List.append_assoc] using hm
      | false =>
        simp only [Bool.false_eq_true, if_false, List.nil_append] at hm ⊢
        refine post_writeQuoted (post_write ?_)
        simpa only [List.append_assoc] using hm
    refine rest _ (fun _ => ?_)
    refine post_moves moves_seekInst (fun inst _ => ?_)
    have back : ∀ (crit : Bool) (x : Out) (s2 : RS V W),
        s2.out = s1.out ++ ((if comma then [c%','] else []) ++ (c%'"' :: alias ++ [c%'"']) ++ [c%':']) ++ print x → Depth.Within k x →
        post (do setPath s.path; setPos (pos + fieldLen + 1); return (false, crit) : M F V W (Bool × Bool)) c s2 (FD k comma s) := by
      intro crit x s2 g2 g3
      refine post_setPath (post_moves moves_setPos (fun _ n => post_pure ⟨rfl, [(alias, x)], ?_, rfl, ?_⟩))
      · dsimp only
        rw [printMember, g2, k2]
        simp only [List.append_assoc]
      · intro m hm
        rw [List.mem_singleton] at hm
        rw [hm]
        exact g3
    split
    · refine post_moves moves_sliceRes (fun name _ => ?_)
      split
      · split
        · exact post_err (back _ .missing _ (by simp [print]) .missing)
        · exact post_writeQuoted (back _ (.leaf (Shows.quoted t.typeName)) _ (by simp [print, Shows.quoted]) .leaf)
      · exact post_writeNull (post_err (back _ .null _ (by simp [print]) .null))
    · rename_i f hf
      refine post_getGoValue (post_bind (post_mono (fieldValue_run _ f) ?_))
      rintro x s2 ⟨rfl, hx⟩
      refine post_setNextGoValue ?_
      dsimp only at hx ⊢
      refine post_bind (post_mono (ih.data (q ++ [.key alias]) f.obj dept _ _ k (hi f (isField_of ht (List.mem_of_find?_eq_some hf))) hk (k1.trans hq)) ?_)
      rintro crit s3 ⟨j1, out, j3, j4⟩
      dsimp only at j1 j3
      exact post_decIdx (back _ out _ j3 j4)
  · exact post_setPath (post_moves moves_setPos (fun _ n => post_pure (stop false n)))

theorem data_run (n : Nat) (ih : AllD c n) (q : List Seg) (o : Obj F) (dept : UInt8) (sub : Bool) (s : RS V W) (k : Nat)
    (ho : noInterface o = true) (hk : dept.toNat + k + 1 = c.schema.maxDepth.toNat) (hp : s.path = pathText q) :
    post (resolveFieldDataValue (n + 1) o dept sub) c s (fun _ s' => VD k s s') := by
  unfold resolveFieldDataValue
  refine post_getCfg (post_getGoValue (post_moves moves_seekInst (fun inst n0 => ?_)))
  by_cases hc : (inst == c%'v' && !methodBehindPtr o) = true
  · rw [if_pos hc]
    exact post_writeNull (post_err (post_pure VD.refused))
  · rw [if_neg hc]
    clear hc
    cases o with
    | undefined => exact post_writeNull (post_pure VD.null)
    | array o =>
      dsimp only
      refine post_viewOf ?_
      dsimp only
      cases hv : c.env.view s.world (s.vals s.idx) with
      | seq vs =>
        cases vs with
        | none => exact post_writeNull (post_pure VD.null)
        | some vs =>
          refine post_write (post_incIdx (post_getPos (fun start => post_bind (post_mono (elems_run (q := q) (k := k) ?_ start vs 0 _ hp) ?_))))
          · intro i s' hs'
            exact ih.data _ o dept sub s' k ho hk hs'
          · rintro - s1 ⟨k1, os, k3, k4, k5⟩
            dsimp only at k1 k4
            exact post_decIdx (post_write (post_pure ⟨k1, .list os, by simp [k4, print], .list k5⟩))
      | _ => exact post_panicM
    | objRef name =>
      dsimp only
      split
      · exact post_writeNull (post_err (post_pure VD.refused))
      · cases hl : lookup c.schema.types name with
        | none => exact post_writeNull (post_pure VD.null)
        | some t =>
          dsimp only
          split
          · exact post_writeNull (post_err (post_pure VD.refused))
          · rename_i hd
            have hlt := c.schema.maxDepth.toNat_lt
            have e1 : (dept + 1).toNat = dept.toNat + 1 := succ_toNat (by omega)
            have e2 : (dept + 1).toNat ≠ c.schema.maxDepth.toNat := fun h => hd (UInt8.toNat_inj.1 h)
            obtain ⟨k', rfl⟩ : ∃ k', k = k' + 1 := ⟨k - 1, by omega⟩
            refine post_write (post_bind (post_mono (ih.sels q t (dept + 1) true _ k' (Or.inr (Or.inr ⟨_, hl⟩)) (by omega) hp) ?_))
            rintro ⟨crit, first⟩ s1 ⟨k1, ms, k3, -, k5⟩
            dsimp only at k1 k3
            exact post_write (post_pure ⟨k1, .obj ms, by simp [k3, print], .obj k5⟩)
    | data isID kind =>
      dsimp only
      split
      · exact post_writeNull (post_err (post_pure VD.refused))
      · refine post_viewOf ?_
        dsimp only
        cases hv : c.env.view s.world (s.vals s.idx) with
        | scalar x =>
          dsimp only
          cases ht : dataText c.env isID kind x with
          | none => exact post_panicM
          | some t => exact post_write (post_pure (VD.leaf (.leaf t) rfl rfl .leaf))
        | _ => exact post_panicM
    | ptr o =>
      dsimp only
      refine post_viewOf ?_
      dsimp only
      cases hv : c.env.view s.world (s.vals s.idx) with
      | ptr v =>
        cases v with
        | none => exact post_writeNull (post_pure VD.null)
        | some v => exact post_setGoValue (post_mono (ih.data q o dept sub _ k ho hk hp) (fun _ _ h => h))
      | _ => exact post_panicM
    | method m out =>
      dsimp only
      have call : post (callAndResolve m (s.vals s.idx) (fun v hasSubSelection => do
            setGoValue v
            resolveFieldDataValue n out dept hasSubSelection)) c { s with charNr := n0 } (fun _ s' => VD k s s') := by
        refine callAndResolve_run (c := c) (q := q) (s := { s with charNr := n0 }) (m := m) hp ?_
        intro v b s1 hs1
        exact post_setGoValue (post_mono (ih.data q out dept b _ k ho hk hs1) (fun _ _ h => h))
      unfold isNilFunc
      by_cases hm : m.isTypeMethod = true
      · rw [if_pos hm]
        exact post_bind (post_pure call)
      · rw [if_neg hm]
        refine post_bind (post_viewOf ?_)
        dsimp only
        cases hv : c.env.view s.world (s.vals s.idx) with
        | func b =>
          refine post_pure ?_
          cases b with
          | true => exact post_writeNull (post_pure VD.null)
          | false => exact call
        | _ => exact post_panicM
    | enum idx =>
      dsimp only
      cases he : c.schema.enums[idx]? with
      | none => exact post_panicM
      | some e =>
        refine post_viewOf ?_
        dsimp only
        cases hv : c.env.view s.world (s.vals s.idx) with
        | scalar x =>
          dsimp only
          cases hk : enumKey e x with
          | none => exact post_panicM
          | some k =>
            cases k with
            | some k => exact post_writeQuoted (post_pure (VD.leaf (.leaf (Shows.quoted k)) rfl (by simp [print, Shows.quoted]) .leaf))
            | none => exact post_writeNull (post_pure VD.null)
        | _ => exact post_panicM
    | time =>
      dsimp only
      refine post_viewOf ?_
      dsimp only
      cases hv : c.env.view s.world (s.vals s.idx) with
      | time t => exact post_write (post_pure (VD.leaf (.leaf (Shows.quoted (Time.timeToIso8601String [] t))) rfl (by simp [print, Shows.quoted]) .leaf))
      | _ => exact post_writeNull (post_pure VD.null)
    | interfaceRef name => cases ho

theorem allD (hi : ∀ f, IsField c.schema f → noInterface f.obj = true) (n : Nat) : AllD c n := by
  induction n with
  | zero =>
    constructor
    · intros; unfold resolveSelectionSet; exact post_oofM
    · intros; unfold resolveSpread; exact post_oofM
    · intros; unfold resolveField; exact post_oofM
    · intros; unfold resolveFieldDataValue; exact post_oofM
  | succ n ih => exact ⟨sels_run n ih, spread_run n ih, field_run hi n ih, data_run n ih⟩

theorem operation_run (hi : ∀ f, IsField c.schema f → noInterface f.obj = true) (hm : 0 < c.schema.maxDepth.toNat) (n : Nat) {s : RS V W} (hp : s.path = []) :
    post (resolveOperation n) c s (fun _ s' => ∃ ms, s'.out = s.out ++ printMembers true ms ∧ Depth.Within c.schema.maxDepth.toNat (.obj ms)) := by
  obtain ⟨k, hk⟩ : ∃ k, c.schema.maxDepth.toNat = k + 1 := ⟨c.schema.maxDepth.toNat - 1, by omega⟩
  have h0 : (0 : UInt8).toNat = 0 := rfl
  have none : ∀ s' : RS V W, s'.out = s.out → ∃ ms, s'.out = s.out ++ printMembers true ms ∧ Depth.Within c.schema.maxDepth.toNat (.obj ms) := by
    intro s' h
    refine ⟨[], by simp [h, printMembers], ?_⟩
    rw [hk]
    exact .obj (by simp)
  have fin : ∀ (kb : UInt8) (s2 : RS V W), s2.path = [] → s2.out = s.out →
      post (do let (criticalErr, _) ← resolveSelectionSet n (if kb == c%'m' then c.schema.rootMethod else c.schema.rootQuery) 0 true
               return criticalErr : M F V W Bool) c s2 (fun _ s' => ∃ ms, s'.out = s.out ++ printMembers true ms ∧ Depth.Within c.schema.maxDepth.toNat (.obj ms)) := by
    intro kb s2 k1 k2
    refine post_bind (post_mono ((allD hi n).sels [] _ 0 true s2 k ?_ (by omega) (by rw [k1]; rfl)) ?_)
    · split
      · exact Or.inr (Or.inl rfl)
      · exact Or.inl rfl
    · rintro a s3 ⟨j1, ms, j3, -, j5⟩
      refine post_pure ⟨ms, by rw [j3, k2], ?_⟩
      rw [hk]
      exact .obj j5
  have rest : ∀ (kb : UInt8) (s1 : RS V W), s1.path = [] → s1.out = s.out →
      post (do
        let hasArgs := (← readInst) == c%'t'
        setArgs hasArgs 0
        let directivesCount ← readInst
        if directivesCount > 0 then
          err b%"operation directives unsupported"
          return true
        let _ ← readToNul
        if hasArgs then
          let argumentsLen ← readUint32M
          setArgs true ((← getPos) + 5)
          skipInst (argumentsLen + 5)
        let root := if kb == c%'m' then c.schema.rootMethod else c.schema.rootQuery
        let (criticalErr, _) ← resolveSelectionSet n root 0 true
        return criticalErr : M F V W Bool) c s1 (fun _ s' => ∃ ms, s'.out = s.out ++ printMembers true ms ∧ Depth.Within c.schema.maxDepth.toNat (.obj ms)) := by
    intro kb s1 k1 k2
    refine post_moves moves_readInst (fun b m => ?_)
    dsimp only
    refine post_bind ?_
    intro _ s2 hs2
    cases hs2
    refine post_moves moves_readInst (fun b2 m2 => ?_)
    split
    · exact post_err (post_pure (none _ k2))
    · refine post_moves moves_readToNul (fun _ m3 => ?_)
      split
      · refine post_moves moves_readUint32M (fun _ m4 => post_getPos (fun _ => post_bind ?_))
        intro _ s2 hs2
        cases hs2
        exact post_moves moves_skipInst (fun _ m4 => fin kb _ k1 k2)
      · exact fin kb _ k1 k2
  unfold resolveOperation
  refine post_getCfg (post_bind ?_)
  intro _ s0 hs0
  have hs0 : R.ok () { s with charNr := s.charNr + 2 } = R.ok () s0 := hs0
  cases hs0
  refine post_moves moves_readInst (fun kb m => ?_)
  dsimp only
  by_cases h1 : (kb == c%'s') = true
  · rw [if_pos h1]
    exact post_err (post_pure (none _ rfl))
  rw [if_neg h1]
  have second : ∀ (s1 : RS V W), s1.path = [] → s1.out = s.out → ∀ (v : V) (m : Unit → M F V W Bool),
      (∀ s1 : RS V W, s1.path = [] → s1.out = s.out → post (m ()) c s1 (fun _ s' => ∃ ms, s'.out = s.out ++ printMembers true ms ∧ Depth.Within c.schema.maxDepth.toNat (.obj ms))) →
      post ((fun _ s => .ok () { s with vals := fun i => if i = 0 then v else s.vals i } : M F V W Unit) >>= m) c s1
        (fun _ s' => ∃ ms, s'.out = s.out ++ printMembers true ms ∧ Depth.Within c.schema.maxDepth.toNat (.obj ms)) := by
    intro s1 g1 g2 v m hm
    refine post_bind ?_
    intro _ s2 h2
    have h2 : R.ok () _ = R.ok () s2 := h2
    cases h2
    exact hm _ g1 g2
  by_cases h2 : (kb == c%'q') = true
  · rw [if_pos h2]
    refine second _ (by exact hp) (by rfl) _ _ (fun s1 g1 g2 => ?_)
    by_cases h3 : (kb == c%'m') = true
    · rw [if_pos h3]
      exact second _ g1 g2 _ _ (fun s1 g1 g2 => rest kb s1 g1 g2)
    · rw [if_neg h3]
      exact rest kb s1 g1 g2
  · rw [if_neg h2]
    by_cases h3 : (kb == c%'m') = true
    · rw [if_pos h3]
      exact second _ (by exact hp) (by rfl) _ _ (fun s1 g1 g2 => rest kb s1 g1 g2)
    · rw [if_neg h3]
      exact rest kb _ (by exact hp) (by rfl)

end
end DepthRun
end Resolver
end Yarql
