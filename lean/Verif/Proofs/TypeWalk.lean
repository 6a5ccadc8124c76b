import Verif.Spec.GoTypes
import Verif.Proofs.Decimal

/-!
# The type walk: tables only grow, and what they hold is right
-/

namespace Yarql
namespace TypeWalk
open GoTypes Naming

variable {F V W : Type}

/-! ## Maps -/

theorem lookup_mapSet {K A : Type} [DecidableEq K] (m : List (K × A)) (k : K) (a : A) (x : K) :
    lookup (mapSet m k a) x = if x = k then some a else lookup m x := by
  unfold lookup mapSet
  by_cases h : x = k
  · subst h; simp
  · rw [List.find?_cons_of_neg (by simpa using fun e => h e.symm), if_neg h, List.find?_filter]
    congr 2
    funext e
    by_cases e1 : e.1 = x
    · simp [e1, h]
    · simp [e1]

theorem lookup_mapSet_self {K A : Type} [DecidableEq K] (m : List (K × A)) (k : K) (a : A) :
    lookup (mapSet m k a) k = some a := by rw [lookup_mapSet, if_pos rfl]

theorem lookup_mapSet_ne {K A : Type} [DecidableEq K] {m : List (K × A)} {k x : K} {a : A} (h : x ≠ k) :
    lookup (mapSet m k a) x = lookup m x := by rw [lookup_mapSet, if_neg h]

theorem nodup_mapSet {K A : Type} [DecidableEq K] {m : List (K × A)} {k : K} {a : A} (h : (m.map (·.1)).Nodup) :
    ((mapSet m k a).map (·.1)).Nodup := by
  unfold mapSet
  rw [List.map_cons, List.nodup_cons]
  refine ⟨?_, ?_⟩
  · intro hm
    obtain ⟨e, he, hk⟩ := List.mem_map.1 hm
    have := (List.mem_filter.1 he).2
    simp at this
    exact this hk
  · exact List.Sublist.nodup (List.Sublist.map _ List.filter_sublist) h

theorem mem_fieldSet {fs : List WField} {f g : WField} : g ∈ fieldSet fs f ↔ g = f ∨ (g ∈ fs ∧ g.key ≠ f.key) := by
  simp [fieldSet]

/-! ## The monad -/

theorem bind_ok {S α β : Type} {m : M S α} {f : α → M S β} {s : S} {b : β} {s'' : S} :
    (m >>= f) s = .ok b s'' ↔ ∃ a s', m s = .ok a s' ∧ f a s' = .ok b s'' := by
  change M.bind m f s = _ ↔ _
  unfold M.bind
  cases h : m s with
  | ok a s' =>
    constructor
    · intro h'; exact ⟨a, s', rfl, h'⟩
    · rintro ⟨a', s1, h1, h2⟩; injection h1 with e1 e2; subst e1; subst e2; exact h2
  | err e => simp
  | panic => simp
  | oof => simp

theorem pure_ok {S α : Type} {a b : α} {s s' : S} : (pure a : M S α) s = .ok b s' ↔ a = b ∧ s = s' := by
  change WR.ok a s = .ok b s' ↔ _
  simp

theorem getS_ok {S : Type} {a s s' : S} : (getS : M S S) s = .ok a s' ↔ s = a ∧ s = s' := by
  unfold getS; constructor
  · intro h; injection h with h1 h2; exact ⟨h1, h2⟩
  · rintro ⟨rfl, rfl⟩; rfl

theorem setS_ok {S : Type} {x s s' : S} {u : Unit} : (setS x : M S Unit) s = .ok u s' ↔ s' = x := by
  unfold setS; constructor
  · intro h; injection h with h1 h2; exact h2.symm
  · rintro rfl; rfl

theorem fail_ok {S α : Type} {e : WErr} {s s' : S} {a : α} : (fail e : M S α) s = .ok a s' ↔ False := by
  unfold fail; simp

theorem panic_ok {S α : Type} {s s' : S} {a : α} : (panicW : M S α) s = .ok a s' ↔ False := by
  unfold panicW; simp

/-! ## Growth of the tables -/

section
variable (prog : Program F)

/-- The tables of `s'` extend those of `s`. -/
structure Ext (s s' : St) : Prop where
  types : ∀ n e, lookup s.types n = some e → ∃ e', lookup s'.types n = some e' ∧ e'.src = e.src
  interfaces : ∀ n e, lookup s.interfaces n = some e → ∃ e', lookup s'.interfaces n = some e' ∧ e'.src = e.src
  methods : s.methods <+: s'.methods
  unknown : s.unknownTypes ≤ s'.unknownTypes

theorem Ext.refl (s : St) : Ext s s := ⟨fun _ e h => ⟨e, h, rfl⟩, fun _ e h => ⟨e, h, rfl⟩, List.prefix_refl _, Nat.le_refl _⟩

theorem Ext.trans {a b c : St} (h1 : Ext a b) (h2 : Ext b c) : Ext a c := by
  refine ⟨?_, ?_, h1.methods.trans h2.methods, Nat.le_trans h1.unknown h2.unknown⟩
  · intro n e h
    obtain ⟨e1, l1, s1⟩ := h1.types n e h
    obtain ⟨e2, l2, s2⟩ := h2.types n e1 l1
    exact ⟨e2, l2, s2.trans s1⟩
  · intro n e h
    obtain ⟨e1, l1, s1⟩ := h1.interfaces n e h
    obtain ⟨e2, l2, s2⟩ := h2.interfaces n e1 l1
    exact ⟨e2, l2, s2.trans s1⟩

theorem _root_.Yarql.GoTypes.Stands.mono {prog : Program F} {s s' : St} (h : Ext s s') : ∀ {t id o}, Stands prog s t id o → Stands prog s' t id o := by
  intro t id o hs
  induction hs with
  | time ht => exact .time ht
  | struct h1 h2 h3 h4 =>
    obtain ⟨e', l, hsrc⟩ := h.types _ _ h2
    exact .struct h1 l (hsrc.trans h3) h4
  | iface h1 h2 h3 h4 h5 =>
    obtain ⟨e', l, hsrc⟩ := h.interfaces _ _ h4
    exact .iface h1 h2 h3 l (hsrc.trans h5)
  | array a b _ ih => exact .array a b ih
  | slice a b _ ih => exact .slice a b ih
  | ptr a b _ ih => exact .ptr a b ih
  | enum a b c => exact .enum a b c
  | data a b c d => exact .data a b c d

theorem getElem?_prefix {α : Type} {l l' : List α} (h : l <+: l') {i : Nat} {a : α} (ha : l[i]? = some a) : l'[i]? = some a := by
  obtain ⟨r, rfl⟩ := h
  have : i < l.length := by
    rcases Nat.lt_or_ge i l.length with h | h
    · exact h
    · rw [List.getElem?_eq_none h] at ha; cases ha
  rw [List.getElem?_append_left this, ha]

theorem funcOf_mono {prog : Program F} {s s' : St} (h : Ext s s') {nm sig b tag o} (hf : FuncOf prog s nm sig b tag o) :
    FuncOf prog s' nm sig b tag o := by
  obtain ⟨idx, outNr, en, out, ty, id, h1, h2, h3, h4, h5⟩ := hf
  exact ⟨idx, outNr, en, out, ty, id, h1, getElem?_prefix h.methods h2, h3, h4.mono h, h5⟩

theorem _root_.Yarql.GoTypes.FieldOf.mono {prog : Program F} {s s' : St} (h : Ext s s') {t f} (hf : FieldOf prog s t f) : FieldOf prog s' t f := by
  cases hf with
  | plain a b c d e g => exact .plain a b c d e (g.mono h)
  | func a b c d e g => exact .func a b c d e (funcOf_mono h g)
  | method a b c => exact .method a b (funcOf_mono h c)

theorem _root_.Yarql.GoTypes.FieldsOf.mono {prog : Program F} {s s' : St} (h : Ext s s') {t fs} (hf : FieldsOf prog s t fs) : FieldsOf prog s' t fs :=
  ⟨fun u hu => (let ⟨id, o, x⟩ := hf.seen u hu; ⟨id, o, x.mono h⟩),
    fun f hm => ⟨(hf.sound f hm).1, (hf.sound f hm).2.mono h⟩, hf.complete, hf.unique⟩

theorem entryOf_mono {prog : Program F} {s s' : St} (h : Ext s s') {e} (hf : EntryOf prog s e) : EntryOf prog s' e := by
  obtain ⟨h1, h2, h3⟩ := hf
  refine ⟨h1.mono h, ?_, ?_⟩
  · intro hn u hu
    obtain ⟨o, x, y⟩ := h2 hn u hu
    exact ⟨o, x.mono h, y⟩
  · intro n hn
    obtain ⟨u, hu, gn, gp, x⟩ := h3 n hn
    exact ⟨u, hu, gn, gp, x.mono h⟩

theorem iEntryOf_mono {prog : Program F} {s s' : St} (h : Ext s s') {e} (hf : IEntryOf prog s e) : IEntryOf prog s' e := by
  obtain ⟨h1, us, h2, h3, h4⟩ := hf
  refine ⟨h1.mono h, us, h2, ?_, ?_⟩
  · intro i hi
    obtain ⟨u, hu, hx, hs⟩ := h3 i hi
    exact ⟨u, hu, hx, hs.mono h⟩
  · intro u hu ht
    obtain ⟨i, hi, hs⟩ := h4 u hu ht
    exact ⟨i, hi, hs.mono h⟩

/-! ## The invariant -/

/-- What the tables say about the types they were made from. -/
structure Inv (s : St) : Prop where
  types : ∀ n e, lookup s.types n = some e → (∃ fs, IsStruct prog e.src fs) ∧ e.pkg = (prog.get e.src).pkg ∧
    e.goName = (prog.get e.src).name ∧
    (((prog.get e.src).name ≠ [] ∧ n = qlName prog (prog.get e.src).name) ∨
     ((prog.get e.src).name = [] ∧ ∃ k, k ≤ s.unknownTypes ∧ n = unknownType k))
  interfaces : ∀ n e, lookup s.interfaces n = some e → (prog.get e.src).shape = .iface ∧ e.pkg = (prog.get e.src).pkg ∧
    e.goName = (prog.get e.src).name ∧ n = qlName prog (prog.get e.src).name ∧ (prog.get e.src).name ≠ []

/-- Between `s` and `s'` only finished entries were added or changed. -/
structure Done (s s' : St) : Prop where
  types : ∀ n e, lookup s'.types n = some e → EntryOf prog s' e ∨ lookup s.types n = some e
  interfaces : ∀ n e, lookup s'.interfaces n = some e → IEntryOf prog s' e ∨ lookup s.interfaces n = some e

structure Post (s s' : St) : Prop where
  inv : Inv prog s'
  ext : Ext s s'
  done : Done prog s s'

theorem Post.refl {s : St} (h : Inv prog s) : Post prog s s :=
  ⟨h, .refl s, fun _ _ l => .inr l, fun _ _ l => .inr l⟩

theorem Post.trans {a b c : St} (h1 : Post prog a b) (h2 : Post prog b c) : Post prog a c := by
  refine ⟨h2.inv, h1.ext.trans h2.ext, ?_, ?_⟩
  · intro n e l
    rcases h2.done.types n e l with h | h
    · exact .inl h
    · rcases h1.done.types n e h with h | h
      · exact .inl (entryOf_mono h2.ext h)
      · exact .inr h
  · intro n e l
    rcases h2.done.interfaces n e l with h | h
    · exact .inl h
    · rcases h1.done.interfaces n e h with h | h
      · exact .inl (iEntryOf_mono h2.ext h)
      · exact .inr h

/-- What `check` has to satisfy. -/
def Good (chk : Ty → Bool → M St WObj) : Prop :=
  ∀ t id s o s', Inv prog s → chk t id s = .ok o s' → Post prog s s' ∧ Stands prog s' t id o

end

/-! ## Functions -/

section
variable {prog : Program F}

/-- what is known about the outputs seen so far -/
structure Scanned (prog : Program F) (outs : List Ty) (tag : Bool) (i : Nat) (o : Outs) : Prop where
  out : ∀ nr, o.outNr = some nr → nr < i ∧ ∃ u, outs[nr]? = some u ∧ prog.isError u = false ∧ isAttrID (prog.get u) = false
  err : ∀ nr, o.errorOutNr = some nr → nr < i ∧ ∃ u, outs[nr]? = some u ∧ prog.isError u = true
  all : ∀ nr u, nr < i → outs[nr]? = some u → o.outNr = some nr ∨ isAttrID (prog.get u) = true ∨ o.errorOutNr = some nr
  id : o.isID = true ↔ tag = true ∨ ∃ nr u, nr < i ∧ outs[nr]? = some u ∧ isAttrID (prog.get u) = true

theorem scanOuts_spec {outs : List Ty} {tag : Bool} : ∀ (ts : List Ty) (i : Nat) (o o' : Outs), outs.drop i = ts → Scanned prog outs tag i o →
    scanOuts prog i ts o = .ok o' → Scanned prog outs tag outs.length o' := by
  intro ts
  induction ts with
  | nil =>
    intro i o o' hd hs h
    simp only [scanOuts] at h
    injection h with h; subst h
    have hl : outs.length ≤ i := List.drop_eq_nil_iff.1 hd
    refine ⟨?_, ?_, ?_, ?_⟩
    · intro nr hn
      obtain ⟨_, u, hu, h2⟩ := hs.out nr hn
      refine ⟨?_, u, hu, h2⟩
      exact (List.getElem?_eq_some_iff.1 hu).1
    · intro nr hn
      obtain ⟨_, u, hu, h2⟩ := hs.err nr hn
      refine ⟨?_, u, hu, h2⟩
      exact (List.getElem?_eq_some_iff.1 hu).1
    · intro nr u hn hu
      exact hs.all nr u (Nat.lt_of_lt_of_le hn hl) hu
    · rw [hs.id]
      refine or_congr Iff.rfl ⟨?_, ?_⟩
      · rintro ⟨nr, u, _, h2, h3⟩
        exact ⟨nr, u, (List.getElem?_eq_some_iff.1 h2).1, h2, h3⟩
      · rintro ⟨nr, u, h1, h2, h3⟩
        exact ⟨nr, u, Nat.lt_of_lt_of_le h1 hl, h2, h3⟩
  | cons t ts ih =>
    intro i o o' hd hs h
    have ht : outs[i]? = some t := by
      have := congrArg List.head? hd
      rwa [List.head?_drop] at this
    have hd' : outs.drop (i + 1) = ts := by
      have := congrArg List.tail hd
      rwa [List.tail_drop] at this
    have key : ∀ o1 : Outs, (∀ nr, o1.outNr = some nr → o.outNr = some nr ∨ (nr = i ∧ prog.isError t = false ∧ isAttrID (prog.get t) = false)) →
        (∀ nr, o1.errorOutNr = some nr → o.errorOutNr = some nr ∨ (nr = i ∧ prog.isError t = true)) →
        (∀ nr, o.outNr = some nr → o1.outNr = some nr) → (∀ nr, o.errorOutNr = some nr → o1.errorOutNr = some nr) →
        (o1.outNr = some i ∨ isAttrID (prog.get t) = true ∨ o1.errorOutNr = some i) →
        (o1.isID = true ↔ o.isID = true ∨ isAttrID (prog.get t) = true) →
        Scanned prog outs tag (i + 1) o1 := by
      intro o1 a b c d e eid
      refine ⟨?_, ?_, ?_, ?_⟩
      · intro nr hn
        rcases a nr hn with h | ⟨rfl, h1, h2⟩
        · obtain ⟨h1, h2⟩ := hs.out nr h; exact ⟨by omega, h2⟩
        · exact ⟨by omega, t, ht, h1, h2⟩
      · intro nr hn
        rcases b nr hn with h | ⟨rfl, h1⟩
        · obtain ⟨h1, h2⟩ := hs.err nr h; exact ⟨by omega, h2⟩
        · exact ⟨by omega, t, ht, h1⟩
      · intro nr u hn hu
        rcases Nat.lt_or_ge nr i with h | h
        · rcases hs.all nr u h hu with h | h | h
          · exact .inl (c nr h)
          · exact .inr (.inl h)
          · exact .inr (.inr (d nr h))
        · have : nr = i := by omega
          subst this
          rw [ht] at hu; injection hu with hu; subst hu
          exact e
      · rw [eid, hs.id]
        constructor
        · rintro ((h | ⟨nr, u, h1, h2⟩) | h)
          · exact .inl h
          · exact .inr ⟨nr, u, by omega, h2⟩
          · exact .inr ⟨i, t, by omega, ht, h⟩
        · rintro (h | ⟨nr, u, h1, h2, h3⟩)
          · exact .inl (.inl h)
          · rcases Nat.lt_or_ge nr i with h | h
            · exact .inl (.inr ⟨nr, u, h, h2, h3⟩)
            · have : nr = i := by omega
              subst this
              rw [ht] at h2; injection h2 with h2; subst h2
              exact .inr h3
    simp only [scanOuts] at h
    cases ha : isAttrID (prog.get t) with
    | true =>
      rw [ha, if_pos rfl] at h
      refine ih (i + 1) _ o' hd' ?_ h
      exact key _ (fun _ h => .inl h) (fun _ h => .inl h) (fun _ h => h) (fun _ h => h) (.inr (.inl ha)) (by simp [ha])
    | false =>
      rw [ha, if_neg (by simp)] at h
      cases he : prog.isError t with
      | true =>
        rw [he, if_pos rfl] at h
        cases hi : o.errorOutNr with
        | some x => rw [hi] at h; simp at h
        | none =>
          rw [hi] at h
          simp only [Option.isSome_none, Bool.false_eq_true, if_false] at h
          refine ih (i + 1) _ o' hd' ?_ h
          refine key _ (fun _ h => .inl h) ?_ (fun _ h => h) ?_ (.inr (.inr rfl)) (by simp [ha])
          · intro nr hn
            simp only [Option.some.injEq] at hn
            exact .inr ⟨hn.symm, he⟩
          · intro nr hn; rw [hi] at hn; cases hn
      | false =>
        rw [he, if_neg (by simp)] at h
        cases hi : o.outNr with
        | some x => rw [hi] at h; simp at h
        | none =>
          rw [hi] at h
          simp only [Option.isSome_none, Bool.false_eq_true, if_false] at h
          refine ih (i + 1) _ o' hd' ?_ h
          refine key _ ?_ (fun _ h => .inl h) ?_ (fun _ h => h) (.inl rfl) (by simp [ha])
          · intro nr hn
            simp only [Option.some.injEq] at hn
            exact .inr ⟨hn.symm, he, ha⟩
          · intro nr hn; rw [hi] at hn; cases hn

theorem addMethod_post {s : St} (m : MethodRec) (h : Inv prog s) : Post prog s { s with methods := s.methods ++ [m] } := by
  refine ⟨⟨h.types, h.interfaces⟩, ⟨fun _ e l => ⟨e, l, rfl⟩, fun _ e l => ⟨e, l, rfl⟩, List.prefix_append _ _, Nat.le_refl _⟩, ?_, ?_⟩
  · intro n e l; exact .inr l
  · intro n e l; exact .inr l

theorem checkOuts_good {chk : Ty → Bool → M St WObj} (hg : Good prog chk) {nm sig b id s o s'} (hi : Inv prog s)
    (h : checkOuts prog chk nm sig b id s = .ok o s') : Post prog s s' ∧ FuncOf prog s' nm sig b id o := by
  unfold checkOuts at h
  cases hv : sig.variadic with
  | true => rw [hv, if_pos rfl] at h; exact (fail_ok.1 h).elim
  | false =>
  rw [hv, if_neg (by simp)] at h
  by_cases ho : sig.outs = []
  · rw [if_pos ho] at h; exact (fail_ok.1 h).elim
  rw [if_neg ho] at h
  cases hsc : scanOuts prog 0 sig.outs ⟨none, none, id⟩ with
  | error e => rw [hsc] at h; exact (fail_ok.1 h).elim
  | ok oo =>
  rw [hsc] at h; dsimp only at h
  have hS := scanOuts_spec (outs := sig.outs) (tag := id) sig.outs 0 _ oo (by simp) (by
    refine Scanned.mk ?_ ?_ ?_ ?_
    · intro _ h; cases h
    · intro _ h; cases h
    · intro _ _ h; exact absurd h (Nat.not_lt_zero _)
    · constructor
      · intro h; exact .inl h
      · rintro (h | ⟨_, _, h, _⟩)
        · exact h
        · exact absurd h (Nat.not_lt_zero _)) hsc
  cases hnr : oo.outNr with
  | none => rw [hnr] at h; exact (fail_ok.1 h).elim
  | some nr =>
  rw [hnr] at h; dsimp only at h
  obtain ⟨_, u, hu, hue, hua⟩ := hS.out nr hnr
  rw [hu] at h; dsimp only at h
  obtain ⟨out, s1, h1, h⟩ := bind_ok.1 h
  obtain ⟨s1', s1'', h2, h⟩ := bind_ok.1 h
  obtain ⟨rfl, rfl⟩ := getS_ok.1 h2
  obtain ⟨u', s2, h3, h⟩ := bind_ok.1 h
  have e3 := setS_ok.1 h3
  obtain ⟨e4, e5⟩ := pure_ok.1 h
  subst e4; subst e5; subst e3
  obtain ⟨p1, st⟩ := hg _ _ _ _ _ hi h1
  have p2 := addMethod_post (prog := prog) ⟨nm, sig, b⟩ p1.inv
  refine ⟨p1.trans prog p2, s1.methods.length, nr, oo.errorOutNr, out, u, oo.isID, rfl, ?_, hu, st.mono p2.ext, hue, hua, ?_, ?_, hv, ?_⟩
  · simp
  · intro n hn; exact (hS.err n hn).2
  · intro n v hv
    rcases hS.all n v (List.getElem?_eq_some_iff.1 hv).1 hv with h | h | h
    · rw [hnr] at h; injection h with h; exact .inl h.symm
    · exact .inr (.inl h)
    · exact .inr (.inr h)
  · rw [hS.id]
    refine or_congr Iff.rfl ⟨?_, ?_⟩
    · rintro ⟨n, u, _, h1, h2⟩
      exact ⟨u, List.mem_of_getElem? h1, h2⟩
    · rintro ⟨u, h1, h2⟩
      obtain ⟨n, hn⟩ := List.getElem?_of_mem h1
      exact ⟨n, u, (List.getElem?_eq_some_iff.1 hn).1, hn, h2⟩

/-! ## Loops -/

/-- The fields found so far: sound, one per key, and covering the names `done`. -/
structure Acc (prog : Program F) (s : St) (t : Ty) (done : Bytes → Prop) (acc : List WField) : Prop where
  sound : ∀ f ∈ acc, f.key = Parser.fnv1 f.name ∧ FieldOf prog s t f
  complete : ∀ n, done n → ∃ f ∈ acc, f.key = Parser.fnv1 n
  unique : ∀ f ∈ acc, ∀ g ∈ acc, f.key = g.key → f = g

theorem Acc.mono {s s' : St} {t : Ty} {d : Bytes → Prop} {acc : List WField} (h : Acc prog s t d acc) (he : Ext s s') :
    Acc prog s' t d acc := ⟨fun f hf => ⟨(h.sound f hf).1, (h.sound f hf).2.mono he⟩, h.complete, h.unique⟩

theorem Acc.weaken {s : St} {t : Ty} {d d' : Bytes → Prop} {acc : List WField} (h : Acc prog s t d acc) (hd : ∀ n, d' n → d n) :
    Acc prog s t d' acc := ⟨h.sound, fun n hn => h.complete n (hd n hn), h.unique⟩

theorem Acc.set {s : St} {t : Ty} {d : Bytes → Prop} {acc : List WField} {n : Bytes} {i : Nat} {o : WObj} (h : Acc prog s t d acc)
    (hf : FieldOf prog s t ⟨Parser.fnv1 n, n, i, o⟩) :
    Acc prog s t (fun x => d x ∨ x = n) (fieldSet acc ⟨Parser.fnv1 n, n, i, o⟩) := by
  refine ⟨?_, ?_, ?_⟩
  · intro f hm
    rcases mem_fieldSet.1 hm with rfl | ⟨hm, _⟩
    · exact ⟨rfl, hf⟩
    · exact h.sound f hm
  · rintro x (hx | rfl)
    · obtain ⟨f, hm, hk⟩ := h.complete x hx
      by_cases e : f.key = Parser.fnv1 n
      · exact ⟨_, mem_fieldSet.2 (.inl rfl), by rw [← hk, e]⟩
      · exact ⟨f, mem_fieldSet.2 (.inr ⟨hm, e⟩), hk⟩
    · exact ⟨_, mem_fieldSet.2 (.inl rfl), rfl⟩
  · intro f hf' g hg he
    rcases mem_fieldSet.1 hf' with rfl | ⟨h1, h2⟩
    · rcases mem_fieldSet.1 hg with rfl | ⟨h3, h4⟩
      · rfl
      · exact (h4 he.symm).elim
    · rcases mem_fieldSet.1 hg with rfl | ⟨h3, h4⟩
      · exact (h2 he).elim
      · exact h.unique f h1 g h3 he

theorem drop_step {α : Type} {l : List α} {i : Nat} {a : α} {r : List α} (h : l.drop i = a :: r) : l[i]? = some a ∧ l.drop (i + 1) = r := by
  constructor
  · have := congrArg List.head? h
    rwa [List.head?_drop] at this
  · have := congrArg List.tail h
    rwa [List.tail_drop] at this

/-- names exposed by the fields below index `i` -/
def FieldsUpTo (fields : List GoField) (i : Nat) (n : Bytes) : Prop :=
  ∃ j gf id, j < i ∧ fields[j]? = some gf ∧ gf.embedded = false ∧ fieldName gf.name gf.tag = .named n id

theorem FieldsUpTo.step {fields : List GoField} {i : Nat} {n : Bytes} {f : GoField} (hf : fields[i]? = some f)
    (h : FieldsUpTo fields (i + 1) n) : FieldsUpTo fields i n ∨ (f.embedded = false ∧ ∃ id, fieldName f.name f.tag = .named n id) := by
  obtain ⟨j, gf, id, hj, h1, h2, h3⟩ := h
  rcases Nat.lt_or_ge j i with hlt | hge
  · exact .inl ⟨j, gf, id, hlt, h1, h2, h3⟩
  · have : j = i := by omega
    subst this
    rw [hf] at h1; injection h1 with h1; subst h1
    exact .inr ⟨h2, id, h3⟩

theorem walkFields_good {chk : Ty → Bool → M St WObj} (hg : Good prog chk) {t : Ty} {fields : List GoField}
    (hst : IsStruct prog t fields) : ∀ (fs : List GoField) (i : Nat) (acc : List WField) (s : St) (r : List WField) (s' : St),
    fields.drop i = fs → Inv prog s → Acc prog s t (FieldsUpTo fields i) acc → walkFields prog chk i fs acc s = .ok r s' →
    Post prog s s' ∧ Acc prog s' t (FieldsUpTo fields fields.length) r := by
  intro fs
  induction fs with
  | nil =>
    intro i acc s r s' hd hi ha h
    obtain ⟨rfl, rfl⟩ := pure_ok.1 h
    refine ⟨.refl prog hi, ha.weaken ?_⟩
    rintro n ⟨j, gf, id, hj, h1, h2, h3⟩
    exact ⟨j, gf, id, Nat.lt_of_lt_of_le hj (List.drop_eq_nil_iff.1 hd), h1, h2, h3⟩
  | cons f fs ih =>
    intro i acc s r s' hd hi ha h
    obtain ⟨hf, hd'⟩ := drop_step hd
    simp only [walkFields] at h
    cases hem : f.embedded with
    | true =>
      rw [hem, if_pos rfl] at h
      refine ih (i + 1) acc s r s' hd' hi (ha.weaken ?_) h
      intro n hn
      rcases hn.step hf with h | ⟨h, _⟩
      · exact h
      · rw [hem] at h; cases h
    | false =>
      rw [hem, if_neg (by simp)] at h
      cases hn : fieldName f.name f.tag with
      | err => rw [hn] at h; exact (fail_ok.1 h).elim
      | ignored =>
        rw [hn] at h; dsimp only at h
        refine ih (i + 1) acc s r s' hd' hi (ha.weaken ?_) h
        intro n hn'
        rcases hn'.step hf with h | ⟨_, id, h⟩
        · exact h
        · rw [hn] at h; cases h
      | named ql isID =>
        rw [hn] at h; dsimp only at h
        obtain ⟨o, s1, h1, h⟩ := bind_ok.1 h
        have hfo : Post prog s s1 ∧ FieldOf prog s1 t ⟨Parser.fnv1 ql, ql, i, o⟩ := by
          unfold checkField at h1
          cases hsh : (prog.get f.ty).shape with
          | func sig =>
            rw [hsh] at h1
            obtain ⟨p, hf'⟩ := checkOuts_good hg hi h1
            exact ⟨p, .func hst hf hem hn hsh hf'⟩
          | _ =>
            rw [hsh] at h1
            obtain ⟨p, hf'⟩ := hg _ _ _ _ _ hi h1
            exact ⟨p, .plain hst hf hem hn (fun sig e => by rw [hsh] at e; cases e) hf'⟩
        obtain ⟨p1, hfo⟩ := hfo
        obtain ⟨p2, ha2⟩ := ih (i + 1) _ s1 r s' hd' p1.inv (((ha.mono p1.ext).set hfo).weaken (by
          intro n hn'
          rcases hn'.step hf with h | ⟨_, id, h⟩
          · exact .inl h
          · rw [hn] at h; injection h with h1 h2; exact .inr h1.symm)) h
        exact ⟨p1.trans prog p2, ha2⟩

theorem FuncOf.result {s : St} {nm : Bytes} {sig : Sig} {b tag : Bool} {o : WObj} (h : FuncOf prog s nm sig b tag o) {u : Ty} (hu : Result prog sig u) :
    ∃ id o, Stands prog s u id o := by
  obtain ⟨idx, outNr, en, out, ty, id, h1, h2, h3, h4, h5, h6, h7, h8, _⟩ := h
  obtain ⟨hm, he, ha⟩ := hu
  obtain ⟨nr, hnr⟩ := List.getElem?_of_mem hm
  rcases h8 nr u hnr with rfl | h | h
  · rw [h3] at hnr; injection hnr with hnr; subst hnr; exact ⟨_, _, h4⟩
  · rw [ha] at h; cases h
  · obtain ⟨u', hu', hx⟩ := h7 nr h
    rw [hnr] at hu'; injection hu' with hu'; subst hu'
    rw [he] at hx; cases hx

/-- every exposed field was looked at -/
theorem walkFields_seen {chk : Ty → Bool → M St WObj} (hg : Good prog chk) :
    ∀ (fs : List GoField) (i : Nat) (acc : List WField) (s : St) (r : List WField) (s' : St), Inv prog s →
    walkFields prog chk i fs acc s = .ok r s' → Ext s s' ∧ ∀ (j : Nat) (gf : GoField) n id, fs[j]? = some gf → gf.embedded = false →
      fieldName gf.name gf.tag = .named n id → ((∀ sig, (prog.get gf.ty).shape ≠ .func sig) → ∃ id o, Stands prog s' gf.ty id o) ∧
      ∀ sig, (prog.get gf.ty).shape = .func sig → ∀ u, Result prog sig u → ∃ id o, Stands prog s' u id o := by
  intro fs
  induction fs with
  | nil =>
    intro i acc s r s' hi h
    obtain ⟨rfl, rfl⟩ := pure_ok.1 h
    exact ⟨.refl _, fun j gf n id h => (by cases h)⟩
  | cons f fs ih =>
    intro i acc s r s' hi h
    simp only [walkFields] at h
    cases hem : f.embedded with
    | true =>
      rw [hem, if_pos rfl] at h
      obtain ⟨x, q⟩ := ih (i + 1) acc s r s' hi h
      refine ⟨x, ?_⟩
      intro j gf n id hj he hn
      cases j with
      | zero => injection hj with hj; subst hj; rw [hem] at he; cases he
      | succ j => exact q j gf n id hj he hn
    | false =>
      rw [hem, if_neg (by simp)] at h
      cases hn : fieldName f.name f.tag with
      | err => rw [hn] at h; exact (fail_ok.1 h).elim
      | ignored =>
        rw [hn] at h; dsimp only at h
        obtain ⟨x, q⟩ := ih (i + 1) acc s r s' hi h
        refine ⟨x, ?_⟩
        intro j gf n id hj he hn'
        cases j with
        | zero => injection hj with hj; subst hj; rw [hn] at hn'; cases hn'
        | succ j => exact q j gf n id hj he hn'
      | named ql isID =>
        rw [hn] at h; dsimp only at h
        obtain ⟨o, s1, h1, h⟩ := bind_ok.1 h
        unfold checkField at h1
        have hfo : Post prog s s1 ∧ ((∀ sig, (prog.get f.ty).shape ≠ .func sig) → ∃ id o, Stands prog s1 f.ty id o) ∧
            ∀ sig, (prog.get f.ty).shape = .func sig → ∀ u, Result prog sig u → ∃ id o, Stands prog s1 u id o := by
          cases hsh : (prog.get f.ty).shape with
          | func sig =>
            rw [hsh] at h1
            obtain ⟨p, hf'⟩ := checkOuts_good hg hi h1
            refine ⟨p, fun h => absurd rfl (h sig), ?_⟩
            intro sig' e u hu
            injection e with e; subst e
            exact FuncOf.result hf' hu
          | _ =>
            rw [hsh] at h1
            obtain ⟨p, hf'⟩ := hg _ _ _ _ _ hi h1
            exact ⟨p, fun _ => ⟨_, _, hf'⟩, fun sig e => (by cases e)⟩
        obtain ⟨p1, v1, v2⟩ := hfo
        obtain ⟨x, q⟩ := ih (i + 1) _ s1 r s' p1.inv h
        refine ⟨p1.ext.trans x, ?_⟩
        intro j gf n id hj he hn'
        cases j with
        | zero =>
          injection hj with hj; subst hj
          refine ⟨fun h => ?_, fun sig e u hu => ?_⟩
          · obtain ⟨a, b, c⟩ := v1 h; exact ⟨a, b, c.mono x⟩
          · obtain ⟨a, b, c⟩ := v2 sig e u hu; exact ⟨a, b, c.mono x⟩
        | succ j => exact q j gf n id hj he hn'

/-- every exposed method was looked at -/
theorem walkMethods_seen {chk : Ty → Bool → M St WObj} (hg : Good prog chk) :
    ∀ (ms : List (Bytes × Sig)) (i : Nat) (acc : List WField) (s : St) (r : List WField) (s' : St), Inv prog s →
    walkMethods prog chk i ms acc s = .ok r s' → Ext s s' ∧ ∀ (j : Nat) nm sig n, ms[j]? = some (nm, sig) →
      methodName nm = .exposed n → ∀ u, Result prog sig u → ∃ id o, Stands prog s' u id o := by
  intro ms
  induction ms with
  | nil =>
    intro i acc s r s' hi h
    obtain ⟨rfl, rfl⟩ := pure_ok.1 h
    exact ⟨.refl _, fun j nm sig n h => (by cases h)⟩
  | cons x ms ih =>
    intro i acc s r s' hi h
    obtain ⟨nm, sig⟩ := x
    simp only [walkMethods] at h
    cases hn : methodName nm with
    | panic => rw [hn] at h; exact (panic_ok.1 h).elim
    | ignored =>
      rw [hn] at h; dsimp only at h
      obtain ⟨x, q⟩ := ih (i + 1) acc s r s' hi h
      refine ⟨x, ?_⟩
      intro j nm' sig' n hj hn'
      cases j with
      | zero => injection hj with hj; injection hj with hj _; subst hj; rw [hn] at hn'; cases hn'
      | succ j => exact q j nm' sig' n hj hn'
    | exposed ql =>
      rw [hn] at h; dsimp only at h
      obtain ⟨o, s1, h1, h⟩ := bind_ok.1 h
      obtain ⟨p1, hfo⟩ := checkOuts_good hg hi h1
      obtain ⟨x, q⟩ := ih (i + 1) _ s1 r s' p1.inv h
      refine ⟨p1.ext.trans x, ?_⟩
      intro j nm' sig' n hj hn' u hu
      cases j with
      | zero =>
        injection hj with hj; injection hj with _ hj; subst hj
        obtain ⟨a, b, c⟩ := FuncOf.result hfo hu
        exact ⟨a, b, c.mono x⟩
      | succ j => exact q j nm' sig' n hj hn' u hu

/-- names exposed by the methods below index `i` -/
def MethodsUpTo (ms : List (Bytes × Sig)) (i : Nat) (n : Bytes) : Prop :=
  ∃ j nm sig, j < i ∧ ms[j]? = some (nm, sig) ∧ methodName nm = .exposed n

theorem MethodsUpTo.step {ms : List (Bytes × Sig)} {i : Nat} {n : Bytes} {x : Bytes × Sig} (hf : ms[i]? = some x)
    (h : MethodsUpTo ms (i + 1) n) : MethodsUpTo ms i n ∨ methodName x.1 = .exposed n := by
  obtain ⟨j, nm, sig, hj, h1, h2⟩ := h
  rcases Nat.lt_or_ge j i with hlt | hge
  · exact .inl ⟨j, nm, sig, hlt, h1, h2⟩
  · have : j = i := by omega
    subst this
    rw [hf] at h1; injection h1 with h1; subst h1
    exact .inr h2

theorem walkMethods_good {chk : Ty → Bool → M St WObj} (hg : Good prog chk) {t : Ty} {d : Bytes → Prop} :
    ∀ (ms : List (Bytes × Sig)) (i : Nat) (acc : List WField) (s : St) (r : List WField) (s' : St),
    (prog.get t).methods.drop i = ms → Inv prog s → Acc prog s t (fun n => d n ∨ MethodsUpTo (prog.get t).methods i n) acc →
    walkMethods prog chk i ms acc s = .ok r s' →
    Post prog s s' ∧ Acc prog s' t (fun n => d n ∨ MethodsUpTo (prog.get t).methods (prog.get t).methods.length n) r := by
  intro ms
  induction ms with
  | nil =>
    intro i acc s r s' hd hi ha h
    obtain ⟨rfl, rfl⟩ := pure_ok.1 h
    refine ⟨.refl prog hi, ha.weaken ?_⟩
    rintro n (h | ⟨j, nm, sig, hj, h1, h2⟩)
    · exact .inl h
    · exact .inr ⟨j, nm, sig, Nat.lt_of_lt_of_le hj (List.drop_eq_nil_iff.1 hd), h1, h2⟩
  | cons x ms ih =>
    intro i acc s r s' hd hi ha h
    obtain ⟨hf, hd'⟩ := drop_step hd
    obtain ⟨nm, sig⟩ := x
    simp only [walkMethods] at h
    cases hn : methodName nm with
    | panic => rw [hn] at h; exact (panic_ok.1 h).elim
    | ignored =>
      rw [hn] at h; dsimp only at h
      refine ih (i + 1) acc s r s' hd' hi (ha.weaken ?_) h
      rintro n (h | h)
      · exact .inl h
      · rcases h.step hf with h | h
        · exact .inr h
        · rw [hn] at h; cases h
    | exposed ql =>
      rw [hn] at h; dsimp only at h
      obtain ⟨o, s1, h1, h⟩ := bind_ok.1 h
      obtain ⟨p1, hfo⟩ := checkOuts_good hg hi h1
      obtain ⟨p2, ha2⟩ := ih (i + 1) _ s1 r s' hd' p1.inv (((ha.mono p1.ext).set (.method (nm := nm) hf hn hfo)).weaken (by
        rintro n (h | h)
        · exact .inl (.inl h)
        · rcases h.step hf with h | h
          · exact .inl (.inr h)
          · rw [hn] at h; injection h with h; exact .inr h.symm)) h
      exact ⟨p1.trans prog p2, ha2⟩

/-! ## Structs and interfaces -/

theorem walkStructImpls_good {chk : Ty → Bool → M St WObj} (hg : Good prog chk) : ∀ (ts : List Ty) (acc : List Bytes) (s : St)
    (r : List Bytes) (s' : St), Inv prog s → walkStructImpls chk ts acc s = .ok r s' → Post prog s s' ∧
    (∀ n ∈ acc, n ∈ r) ∧ (∀ u ∈ ts, ∃ o, Stands prog s' u false o ∧ ∀ n gn gp, o = .interfaceRef n gn gp → n ∈ r) ∧
    (∀ n ∈ r, n ∈ acc ∨ ∃ u ∈ ts, ∃ gn gp, Stands prog s' u false (.interfaceRef n gn gp)) := by
  intro ts
  induction ts with
  | nil =>
    intro acc s r s' hi h
    obtain ⟨rfl, rfl⟩ := pure_ok.1 h
    exact ⟨.refl prog hi, fun n hn => hn, fun u hu => (by cases hu), fun n hn => .inl hn⟩
  | cons t ts ih =>
    intro acc s r s' hi h
    simp only [walkStructImpls] at h
    obtain ⟨o, s1, h1, h⟩ := bind_ok.1 h
    obtain ⟨p1, st⟩ := hg _ _ _ _ _ hi h1
    have next : ∀ acc', (∀ n ∈ acc', n ∈ acc ∨ ∃ gn gp, o = .interfaceRef n gn gp) → (∀ n ∈ acc, n ∈ acc') →
        (∀ n gn gp, o = .interfaceRef n gn gp → n ∈ acc') → walkStructImpls chk ts acc' s1 = .ok r s' →
        Post prog s s' ∧ (∀ n ∈ acc, n ∈ r) ∧
        (∀ u ∈ t :: ts, ∃ o, Stands prog s' u false o ∧ ∀ n gn gp, o = .interfaceRef n gn gp → n ∈ r) ∧
        (∀ n ∈ r, n ∈ acc ∨ ∃ u ∈ t :: ts, ∃ gn gp, Stands prog s' u false (.interfaceRef n gn gp)) := by
      intro acc' hacc hsub hin h
      obtain ⟨p2, g2, v, i2⟩ := ih acc' s1 r s' p1.inv h
      refine ⟨p1.trans prog p2, fun n hn => g2 n (hsub n hn), ?_, ?_⟩
      · intro u hu
        rcases List.mem_cons.1 hu with rfl | hu
        · exact ⟨_, st.mono p2.ext, fun n gn gp e => g2 n (hin n gn gp e)⟩
        · exact v u hu
      · intro n hn
        rcases i2 n hn with h | ⟨u, hu, x⟩
        · rcases hacc n h with h | ⟨gn, gp, rfl⟩
          · exact .inl h
          · exact .inr ⟨t, List.mem_cons_self .., gn, gp, st.mono p2.ext⟩
        · exact .inr ⟨u, List.mem_cons_of_mem _ hu, x⟩
    cases o with
    | interfaceRef n gn gp =>
      refine next _ ?_ (fun n hn => List.mem_append_left _ hn) ?_ h
      · intro m hm
        rcases List.mem_append.1 hm with h | h
        · exact .inl h
        · rw [List.mem_singleton] at h; subst h; exact .inr ⟨_, _, rfl⟩
      · intro m _ _ e
        injection e with e; subst e
        exact List.mem_append_right _ (List.mem_singleton.2 rfl)
    | _ => exact next _ (fun n h => .inl h) (fun n h => h) (fun _ _ _ e => (by cases e)) h

/-- the name of an entry belongs to its type -/
def NameOf (prog : Program F) (s : St) (t : Ty) (n : Bytes) : Prop :=
  ((prog.get t).name ≠ [] ∧ n = qlName prog (prog.get t).name) ∨
  ((prog.get t).name = [] ∧ ∃ k, k ≤ s.unknownTypes ∧ n = unknownType k)

theorem setType_inv {s : St} {t : Ty} {n : Bytes} {fields : List GoField} (hst : IsStruct prog t fields) (hn : NameOf prog s t n)
    (fs : List WField) (impls : List Bytes) (hi : Inv prog s) :
    Inv prog { s with types := mapSet s.types n ⟨t, (prog.get t).pkg, (prog.get t).name, fs, impls⟩ } := by
  refine ⟨?_, hi.interfaces⟩
  intro m e l
  by_cases hm : m = n
  · subst hm
    rw [lookup_mapSet_self] at l
    injection l with l; subst l
    exact ⟨⟨fields, hst⟩, rfl, rfl, hn⟩
  · rw [lookup_mapSet_ne hm] at l
    exact hi.types m e l

theorem setType_ext {s : St} {n : Bytes} {x : Entry} (h : ∀ e, lookup s.types n = some e → e.src = x.src) :
    Ext s { s with types := mapSet s.types n x } := by
  refine ⟨?_, fun _ e l => ⟨e, l, rfl⟩, List.prefix_refl _, Nat.le_refl _⟩
  intro m e l
  by_cases hm : m = n
  · subst hm; exact ⟨x, lookup_mapSet_self _ _ _, (h e l).symm⟩
  · exact ⟨e, (lookup_mapSet_ne hm).trans l, rfl⟩

theorem exposes_struct {t : Ty} {fields : List GoField} (hst : IsStruct prog t fields) {n : Bytes} (h : Exposes prog t n) :
    FieldsUpTo fields fields.length n ∨ MethodsUpTo (prog.get t).methods (prog.get t).methods.length n := by
  cases h with
  | field h1 h2 h3 h4 =>
    have e := h1.1.symm.trans hst.1
    injection e with e; subst e
    exact .inl ⟨_, _, _, (List.getElem?_eq_some_iff.1 h2).1, h2, h3, h4⟩
  | method h1 h2 => exact .inr ⟨_, _, _, (List.getElem?_eq_some_iff.1 h1).1, h1, h2⟩

theorem newStruct_good {chk : Ty → Bool → M St WObj} (hg : Good prog chk) {t : Ty} {n : Bytes} {fields : List GoField}
    (hst : IsStruct prog t fields) {impls : List Bytes} {s s' : St} {o : WObj} (hi : Inv prog s) (hn : NameOf prog s t n)
    (himp : (prog.get t).name ≠ [] → ∀ u ∈ prog.structImpl (prog.get t).name, ∃ o, Stands prog s u false o ∧
      ∀ n gn gp, o = .interfaceRef n gn gp → n ∈ impls)
    (hims : ∀ n ∈ impls, ∃ u ∈ prog.structImpl (prog.get t).name, ∃ gn gp, Stands prog s u false (.interfaceRef n gn gp))
    (hold : ∀ e, lookup s.types n = some e → e.src = t) (h : newStruct prog chk t n fields impls s = .ok o s') :
    Post prog s s' ∧ Stands prog s' t false o := by
  unfold newStruct at h
  obtain ⟨_, _, hget, h⟩ := bind_ok.1 h
  obtain ⟨rfl, rfl⟩ := getS_ok.1 hget
  obtain ⟨_, s1, hset, h⟩ := bind_ok.1 h
  have e1 := setS_ok.1 hset
  obtain ⟨fs1, s2, hw1, h⟩ := bind_ok.1 h
  obtain ⟨fs2, s3, hw2, h⟩ := bind_ok.1 h
  obtain ⟨_, _, hget, h⟩ := bind_ok.1 h
  obtain ⟨rfl, rfl⟩ := getS_ok.1 hget
  obtain ⟨_, s4, hset, h⟩ := bind_ok.1 h
  have e4 := setS_ok.1 hset
  obtain ⟨e5, e6⟩ := pure_ok.1 h
  subst e5; subst e6
  have i1 : Inv prog s1 := by rw [e1]; exact setType_inv hst hn [] impls hi
  have x1 : Ext s s1 := by rw [e1]; exact setType_ext (x := ⟨t, _, _, [], impls⟩) hold
  have l1 : lookup s1.types n = some ⟨t, (prog.get t).pkg, (prog.get t).name, [], impls⟩ := by
    rw [e1]; exact lookup_mapSet_self _ _ _
  obtain ⟨p2, a2⟩ := walkFields_good hg hst fields 0 [] s1 fs1 s2 (by simp) i1
    ⟨fun f hf => (by cases hf), fun m hm => (by obtain ⟨j, _, _, hj, _⟩ := hm; omega), fun f hf => (by cases hf)⟩ hw1
  obtain ⟨p3, a3⟩ := walkMethods_good (t := t) (d := FieldsUpTo fields fields.length) hg _ 0 fs1 s2 fs2 _ (by simp) p2.inv
    (a2.weaken (by rintro m (h | ⟨j, _, _, hj, _⟩); exact h; omega)) hw2
  have p13 := p2.trans prog p3
  obtain ⟨e', l3, hsrc⟩ := p13.ext.types _ _ l1
  have x4 : Ext s3 s4 := by
    rw [e4]
    refine setType_ext (x := ⟨t, _, _, fs2, impls⟩) ?_
    intro e le
    rw [l3] at le; injection le with le; subst le; exact hsrc
  have hn3 : NameOf prog s3 t n := hn.imp id (fun ⟨a, k, hk, b⟩ => ⟨a, k, Nat.le_trans hk (x1.trans p13.ext).unknown, b⟩)
  have i4 : Inv prog s4 := by rw [e4]; exact setType_inv hst hn3 fs2 impls p13.inv
  have l4 : lookup s4.types n = some ⟨t, (prog.get t).pkg, (prog.get t).name, fs2, impls⟩ := by
    rw [e4]; exact lookup_mapSet_self _ _ _
  obtain ⟨y2, v2⟩ := walkFields_seen hg fields 0 [] s1 fs1 s2 i1 hw1
  obtain ⟨y3, v3⟩ := walkMethods_seen hg _ 0 fs1 s2 fs2 _ p2.inv hw2
  have x14 := (x1.trans p13.ext).trans x4
  have hcomplete : EntryOf prog s4 ⟨t, (prog.get t).pkg, (prog.get t).name, fs2, impls⟩ := by
    refine ⟨FieldsOf.mono x4 ⟨?_, a3.sound, fun m hm => a3.complete m (exposes_struct hst hm), a3.unique⟩, ?_, ?_⟩
    · intro u hu
      cases hu with
      | field h1 h2 h3 h4 h5 =>
        have e := h1.1.symm.trans hst.1
        injection e with e; subst e
        obtain ⟨a, b, c⟩ := (v2 _ _ _ _ h2 h3 h4).1 h5
        exact ⟨a, b, c.mono y3⟩
      | func h1 h2 h3 h4 h5 h6 =>
        have e := h1.1.symm.trans hst.1
        injection e with e; subst e
        obtain ⟨a, b, c⟩ := (v2 _ _ _ _ h2 h3 h4).2 _ h5 _ h6
        exact ⟨a, b, c.mono y3⟩
      | method _ h1 h2 h3 => exact v3 _ _ _ _ h1 h2 _ h3
    · intro hn u hu
      obtain ⟨a, b, c⟩ := himp hn u hu
      exact ⟨a, b.mono x14, c⟩
    · intro n hn
      obtain ⟨u, hu, gn, gp, x⟩ := hims n hn
      exact ⟨u, hu, gn, gp, x.mono x14⟩
  refine ⟨⟨i4, (x1.trans p13.ext).trans x4, ?_, ?_⟩, ?_⟩
  · intro m e l
    by_cases hm : m = n
    · subst hm
      rw [l4] at l; injection l with l; subst l
      exact .inl hcomplete
    · have l' := l
      rw [e4] at l'
      rw [lookup_mapSet_ne hm] at l'
      rcases p13.done.types m e l' with h | h
      · exact .inl (entryOf_mono x4 h)
      · rw [e1, lookup_mapSet_ne hm] at h
        exact .inr h
  · intro m e l
    have l' := l
    rw [e4] at l'
    rcases p13.done.interfaces m e l' with h | h
    · exact .inl (iEntryOf_mono x4 h)
    · rw [e1] at h; exact .inr h
  · refine .struct hst l4 rfl ?_
    intro hne
    rcases hn with h | h
    · exact h.2
    · exact (hne h.1).elim

theorem unknownType_inj {a b : Nat} (h : unknownType a = unknownType b) : a = b :=
  natDigits_injective (List.append_cancel_left h)

theorem checkStruct_good (hnc : NoClash prog) {chk : Ty → Bool → M St WObj} (hg : Good prog chk) {t : Ty} {fields : List GoField}
    (hst : IsStruct prog t fields) {id : Bool} {s s' : St} {o : WObj} (hi : Inv prog s)
    (h : checkStruct prog chk t fields id s = .ok o s') : Post prog s s' ∧ Stands prog s' t id o := by
  unfold checkStruct at h
  cases id with
  | true => simp [fail] at h
  | false =>
  dsimp only at h
  rw [if_neg (by simp)] at h
  by_cases hnm : (prog.get t).name = []
  · rw [if_pos hnm] at h
    obtain ⟨_, _, hget, h⟩ := bind_ok.1 h
    obtain ⟨rfl, rfl⟩ := getS_ok.1 hget
    obtain ⟨_, s1, hset, h⟩ := bind_ok.1 h
    have e1 := setS_ok.1 hset
    have i1 : Inv prog s1 := by
      rw [e1]
      refine ⟨?_, hi.interfaces⟩
      intro n e l
      obtain ⟨a, b, c, d⟩ := hi.types n e l
      exact ⟨a, b, c, d.imp _root_.id (fun ⟨a, k, hk, b⟩ => ⟨a, k, Nat.le_succ_of_le hk, b⟩)⟩
    have p1 : Post prog s s1 := by
      refine ⟨i1, ?_, ?_, ?_⟩ <;> rw [e1]
      · exact ⟨fun _ e l => ⟨e, l, rfl⟩, fun _ e l => ⟨e, l, rfl⟩, List.prefix_refl _, Nat.le_succ _⟩
      · intro n e l; exact .inr l
      · intro n e l; exact .inr l
    obtain ⟨p2, st⟩ := newStruct_good hg hst i1 (.inr ⟨hnm, _, by rw [e1]; exact Nat.le_refl _, rfl⟩)
      (fun h => absurd hnm h) (fun n h => (by cases h)) (by
      intro e l
      rw [e1] at l
      obtain ⟨⟨fs, hf⟩, _, _, h | ⟨_, k, hk, hn⟩⟩ := hi.types _ e l
      · exact absurd h.2.symm (hnc.fresh e.src ⟨⟨fs, hf.1⟩, h.1⟩ _)
      · have := unknownType_inj hn
        omega) h
    exact ⟨p1.trans prog p2, st⟩
  · rw [if_neg hnm] at h
    obtain ⟨_, _, hget, h⟩ := bind_ok.1 h
    obtain ⟨rfl, rfl⟩ := getS_ok.1 hget
    have named : ∀ {s : St}, Inv prog s → ∀ e, lookup s.types (qlName prog (prog.get t).name) = some e →
        Named prog e.src ∧ qlName prog (prog.get t).name = qlName prog (prog.get e.src).name := by
      intro s hi e l
      obtain ⟨⟨fs, hf⟩, _, _, h | ⟨_, k, hk, hn⟩⟩ := hi.types _ e l
      · exact ⟨⟨⟨fs, hf.1⟩, h.1⟩, h.2⟩
      · exact absurd hn (hnc.fresh t ⟨⟨fields, hst.1⟩, hnm⟩ k)
    cases hl : lookup s.types (qlName prog (prog.get t).name) with
    | some v =>
      rw [hl] at h; dsimp only at h
      by_cases hp : v.pkg ≠ (prog.get t).pkg
      · rw [if_pos hp] at h; exact (fail_ok.1 h).elim
      · rw [if_neg hp] at h
        obtain ⟨e1, e2⟩ := pure_ok.1 h
        subst e1; subst e2
        obtain ⟨hN, hq⟩ := named hi v hl
        obtain ⟨_, hvp, hvn, _⟩ := hi.types _ v hl
        have hsrc : v.src = t := hnc.same _ _ hN ⟨⟨fields, hst.1⟩, hnm⟩ hq.symm (by
          rw [← hvp]; exact Decidable.not_not.1 hp)
        refine ⟨.refl prog hi, ?_⟩
        have := Stands.struct (prog := prog) hst hl hsrc (fun _ => rfl)
        rw [hvn, hvp, hsrc]
        exact this
    | none =>
      rw [hl] at h; dsimp only at h
      obtain ⟨impls, s1, h1, h⟩ := bind_ok.1 h
      obtain ⟨p1, _, v1, im1⟩ := walkStructImpls_good hg _ _ _ _ _ hi h1
      obtain ⟨p2, st⟩ := newStruct_good hg hst p1.inv (.inl ⟨hnm, rfl⟩) (fun _ => v1)
        (fun n hn => (im1 n hn).elim (fun h => (by cases h)) id) (by
        intro e l
        obtain ⟨hN, hq⟩ := named p1.inv e l
        by_cases hemp : prog.structImpl (prog.get t).name = []
        · rw [hemp] at h1
          obtain ⟨_, e2⟩ := pure_ok.1 h1
          rw [← e2, hl] at l
          cases l
        · exact (hnc.solo _ _ ⟨⟨fields, hst.1⟩, hnm⟩ hN hq hemp).symm) h
      exact ⟨p1.trans prog p2, st⟩

theorem walkIfaceImpls_good {chk : Ty → Bool → M St WObj} (hg : Good prog chk) {t : Ty} (all : List Ty) :
    ∀ (us : List Ty) (before : List Ty) (acc : List Impl) (s : St) (r : List Impl) (s' : St), all = before ++ us → Inv prog s →
    (∀ i ∈ acc, ∃ u ∈ all, ((prog.get u).name ≠ [] ∧ prog.implements u t = true) ∧ Stands prog s u false (.objRef i.typeName i.goTypeName i.goPkgPath)) →
    (∀ u ∈ before, isTime (prog.get u) = false → ∃ i ∈ acc, Stands prog s u false (.objRef i.typeName i.goTypeName i.goPkgPath)) →
    walkIfaceImpls prog chk t us acc s = .ok r s' → Post prog s s' ∧
    (∀ i ∈ r, ∃ u ∈ all, ((prog.get u).name ≠ [] ∧ prog.implements u t = true) ∧ Stands prog s' u false (.objRef i.typeName i.goTypeName i.goPkgPath)) ∧
    (∀ u ∈ all, isTime (prog.get u) = false → ∃ i ∈ r, Stands prog s' u false (.objRef i.typeName i.goTypeName i.goPkgPath)) := by
  intro us
  induction us with
  | nil =>
    intro before acc s r s' hall hi ha hb h
    obtain ⟨rfl, rfl⟩ := pure_ok.1 h
    rw [List.append_nil] at hall
    subst hall
    exact ⟨.refl prog hi, ha, hb⟩
  | cons u us ih =>
    intro before acc s r s' hall hi ha hb h
    simp only [walkIfaceImpls] at h
    cases hs : isStruct (prog.get u) with
    | false => rw [hs, if_pos rfl] at h; exact (fail_ok.1 h).elim
    | true =>
    rw [hs, if_neg (by simp)] at h
    by_cases hn : (prog.get u).name = []
    · rw [if_pos hn] at h; exact (fail_ok.1 h).elim
    rw [if_neg hn] at h
    cases him : prog.implements u t with
    | false => rw [him, if_pos rfl] at h; exact (fail_ok.1 h).elim
    | true =>
    rw [him, if_neg (by simp)] at h
    obtain ⟨o, s1, h1, h⟩ := bind_ok.1 h
    obtain ⟨p1, st⟩ := hg _ _ _ _ _ hi h1
    have ha1 : ∀ i ∈ acc, ∃ u ∈ all, ((prog.get u).name ≠ [] ∧ prog.implements u t = true) ∧ Stands prog s1 u false (.objRef i.typeName i.goTypeName i.goPkgPath) := by
      intro i hi'
      obtain ⟨u, hu, hx, hst⟩ := ha i hi'
      exact ⟨u, hu, hx, hst.mono p1.ext⟩
    have hmem : u ∈ all := by rw [hall]; simp
    have next : ∀ acc', (∀ i ∈ acc', ∃ u ∈ all, ((prog.get u).name ≠ [] ∧ prog.implements u t = true) ∧ Stands prog s1 u false (.objRef i.typeName i.goTypeName i.goPkgPath)) →
        (∀ i ∈ acc, i ∈ acc') → (isTime (prog.get u) = false → ∃ i ∈ acc', Stands prog s1 u false (.objRef i.typeName i.goTypeName i.goPkgPath)) →
        walkIfaceImpls prog chk t us acc' s1 = .ok r s' → Post prog s s' ∧
        (∀ i ∈ r, ∃ u ∈ all, ((prog.get u).name ≠ [] ∧ prog.implements u t = true) ∧ Stands prog s' u false (.objRef i.typeName i.goTypeName i.goPkgPath)) ∧
        (∀ u ∈ all, isTime (prog.get u) = false → ∃ i ∈ r, Stands prog s' u false (.objRef i.typeName i.goTypeName i.goPkgPath)) := by
      intro acc' hacc hsub hu h
      obtain ⟨p2, q⟩ := ih (before ++ [u]) acc' s1 r s' (by rw [hall]; simp) p1.inv hacc (by
        intro x hx ht
        rcases List.mem_append.1 hx with hx | hx
        · obtain ⟨i, hi', hst⟩ := hb x hx ht
          exact ⟨i, hsub i hi', hst.mono p1.ext⟩
        · rw [List.mem_singleton] at hx; subst hx; exact hu ht) h
      exact ⟨p1.trans prog p2, q⟩
    have hsh : ∃ fs, (prog.get u).shape = .struct fs := by
      unfold isStruct at hs
      cases hsh : (prog.get u).shape <;> rw [hsh] at hs <;> first | exact ⟨_, rfl⟩ | cases hs
    obtain ⟨fs, hsh⟩ := hsh
    cases st with
    | time ht => exact next acc ha1 (fun _ h => h) (fun hf => (by rw [ht] at hf; cases hf)) h
    | struct a b c d =>
      refine next _ ?_ (fun _ h => List.mem_append_left _ h) ?_ h
      · intro i hi'
        rcases List.mem_append.1 hi' with hi' | hi'
        · exact ha1 i hi'
        · rw [List.mem_singleton] at hi'; subst hi'
          exact ⟨u, hmem, ⟨hn, him⟩, .struct a b c d⟩
      · intro _
        exact ⟨_, List.mem_append_right _ (List.mem_singleton.2 rfl), .struct a b c d⟩
    | iface a => rw [hsh] at a; cases a
    | array _ a => rw [hsh] at a; cases a
    | slice _ a => rw [hsh] at a; cases a
    | ptr _ a => rw [hsh] at a; cases a
    | enum _ a => rw [hsh] at a; cases a
    | data _ a => rw [hsh] at a; cases a

theorem checkIface_good (hnc : NoClash prog) {chk : Ty → Bool → M St WObj} (hg : Good prog chk) {t : Ty}
    (hsh : (prog.get t).shape = .iface) (htm : isTime (prog.get t) = false) {id : Bool} {s s' : St} {o : WObj} (hi : Inv prog s)
    (h : checkIface prog chk t id s = .ok o s') : Post prog s s' ∧ Stands prog s' t id o := by
  unfold checkIface at h
  cases id with
  | true => simp [fail] at h
  | false =>
  dsimp only at h
  rw [if_neg (by simp)] at h
  by_cases hnm : (prog.get t).name = []
  · rw [if_pos hnm] at h; exact (fail_ok.1 h).elim
  rw [if_neg hnm] at h
  obtain ⟨_, _, hget, h⟩ := bind_ok.1 h
  obtain ⟨rfl, rfl⟩ := getS_ok.1 hget
  cases hl : lookup s.interfaces (qlName prog (prog.get t).name) with
  | some v =>
    rw [hl] at h; dsimp only at h
    by_cases hp : v.pkg ≠ (prog.get t).pkg
    · rw [if_pos hp] at h; exact (fail_ok.1 h).elim
    · rw [if_neg hp] at h
      obtain ⟨e1, e2⟩ := pure_ok.1 h
      subst e1; subst e2
      obtain ⟨hvs, hvp, hvn, hq, _⟩ := hi.interfaces _ v hl
      have hsrc : v.src = t := hnc.ifaces _ _ hvs hsh hq.symm (by rw [← hvp]; exact Decidable.not_not.1 hp)
      refine ⟨.refl prog hi, ?_⟩
      have := Stands.iface (prog := prog) hsh htm hnm hl hsrc
      rw [hvn, hvp, hsrc]
      exact this
  | none =>
    rw [hl] at h; dsimp only at h
    obtain ⟨_, s1, hset, h⟩ := bind_ok.1 h
    have e1 := setS_ok.1 hset
    cases him : prog.implMap (prog.get t).name with
    | none => rw [him] at h; exact (fail_ok.1 h).elim
    | some us =>
    rw [him] at h; dsimp only at h
    obtain ⟨impls, s2, hw1, h⟩ := bind_ok.1 h
    obtain ⟨fs, s3, hw2, h⟩ := bind_ok.1 h
    obtain ⟨_, _, hget, h⟩ := bind_ok.1 h
    obtain ⟨rfl, rfl⟩ := getS_ok.1 hget
    obtain ⟨_, s4, hset, h⟩ := bind_ok.1 h
    have e4 := setS_ok.1 hset
    obtain ⟨e5, e6⟩ := pure_ok.1 h
    subst e5; subst e6
    have setInv : ∀ {s : St} (fs : List WField) (impls : List Impl), Inv prog s →
        Inv prog { s with interfaces := mapSet s.interfaces (qlName prog (prog.get t).name) ⟨t, (prog.get t).pkg, (prog.get t).name, fs, impls⟩ } := by
      intro s fs impls hi
      refine ⟨hi.types, ?_⟩
      intro m e l
      by_cases hm : m = qlName prog (prog.get t).name
      · subst hm
        rw [lookup_mapSet_self] at l
        injection l with l; subst l
        exact ⟨hsh, rfl, rfl, rfl, hnm⟩
      · rw [lookup_mapSet_ne hm] at l
        exact hi.interfaces m e l
    have setExt : ∀ {s : St} (x : IEntry), (∀ e, lookup s.interfaces (qlName prog (prog.get t).name) = some e → e.src = x.src) →
        Ext s { s with interfaces := mapSet s.interfaces (qlName prog (prog.get t).name) x } := by
      intro s x h
      refine ⟨fun _ e l => ⟨e, l, rfl⟩, ?_, List.prefix_refl _, Nat.le_refl _⟩
      intro m e l
      by_cases hm : m = qlName prog (prog.get t).name
      · subst hm; exact ⟨x, lookup_mapSet_self _ _ _, (h e l).symm⟩
      · exact ⟨e, (lookup_mapSet_ne hm).trans l, rfl⟩
    have i1 : Inv prog s1 := by rw [e1]; exact setInv [] [] hi
    have x1 : Ext s s1 := by rw [e1]; exact setExt _ (fun e l => (by rw [hl] at l; cases l))
    have l1 : lookup s1.interfaces (qlName prog (prog.get t).name) = some ⟨t, (prog.get t).pkg, (prog.get t).name, [], []⟩ := by
      rw [e1]; exact lookup_mapSet_self _ _ _
    obtain ⟨p2, a2, b2⟩ := walkIfaceImpls_good hg us us [] [] s1 impls s2 (by simp) i1 (fun i hi => (by cases hi))
      (fun i hi => (by cases hi)) hw1
    obtain ⟨p3, a3⟩ := walkMethods_good (t := t) (d := fun _ => False) hg _ 0 [] s2 fs _ (by simp) p2.inv
      ⟨fun f hf => (by cases hf), fun m hm => (by rcases hm with h | ⟨j, _, _, hj, _⟩; exact h.elim; omega), fun f hf => (by cases hf)⟩ hw2
    have p13 := p2.trans prog p3
    obtain ⟨e', l3, hsrc⟩ := p13.ext.interfaces _ _ l1
    have x4 : Ext s3 s4 := by
      rw [e4]
      refine setExt _ ?_
      intro e le
      rw [l3] at le; injection le with le; subst le; exact hsrc
    have i4 : Inv prog s4 := by rw [e4]; exact setInv fs impls p13.inv
    have l4 : lookup s4.interfaces (qlName prog (prog.get t).name) = some ⟨t, (prog.get t).pkg, (prog.get t).name, fs, impls⟩ := by
      rw [e4]; exact lookup_mapSet_self _ _ _
    have hcomplete : IEntryOf prog s4 ⟨t, (prog.get t).pkg, (prog.get t).name, fs, impls⟩ := by
      refine iEntryOf_mono x4 ⟨⟨?_, a3.sound, fun m hm => a3.complete m ?_, a3.unique⟩, us, him, ?_, ?_⟩
      · obtain ⟨_, v3⟩ := walkMethods_seen hg _ 0 [] s2 fs _ p2.inv hw2
        intro u hu
        cases hu with
        | field h1 => have := h1.1; rw [hsh] at this; cases this
        | func h1 => have := h1.1; rw [hsh] at this; cases this
        | method _ h1 h2 h3 => exact v3 _ _ _ _ h1 h2 _ h3
      · cases hm with
        | field h1 => have := h1.1; rw [hsh] at this; cases this
        | method h1 h2 => exact .inr ⟨_, _, _, (List.getElem?_eq_some_iff.1 h1).1, h1, h2⟩
      · intro i hi'
        obtain ⟨u, hu, hx, hs⟩ := a2 i hi'
        exact ⟨u, hu, hx, hs.mono p3.ext⟩
      · intro u hu ht
        obtain ⟨i, hi', hs⟩ := b2 u hu ht
        exact ⟨i, hi', hs.mono p3.ext⟩
    refine ⟨⟨i4, (x1.trans p13.ext).trans x4, ?_, ?_⟩, ?_⟩
    · intro m e l
      have l' := l
      rw [e4] at l'
      rcases p13.done.types m e l' with h | h
      · exact .inl (entryOf_mono x4 h)
      · rw [e1] at h; exact .inr h
    · intro m e l
      by_cases hm : m = qlName prog (prog.get t).name
      · subst hm
        rw [l4] at l; injection l with l; subst l
        exact .inl hcomplete
      · have l' := l
        rw [e4] at l'
        rw [lookup_mapSet_ne hm] at l'
        rcases p13.done.interfaces m e l' with h | h
        · exact .inl (iEntryOf_mono x4 h)
        · rw [e1, lookup_mapSet_ne hm] at h
          exact .inr h
    · exact .iface hsh htm hnm l4 rfl

/-! ## check -/

theorem checkBody_good (hnc : NoClash prog) {chk : Ty → Bool → M St WObj} (hg : Good prog chk) : Good prog (checkBody prog chk) := by
  intro t id s o s' hi h
  unfold checkBody at h
  cases htm : isTime (prog.get t) with
  | true =>
    rw [htm, if_pos rfl] at h
    obtain ⟨rfl, rfl⟩ := pure_ok.1 h
    exact ⟨.refl prog hi, .time htm⟩
  | false =>
  rw [htm, if_neg (by simp)] at h
  cases hsh : (prog.get t).shape with
  | struct fields =>
    rw [hsh] at h
    exact checkStruct_good hnc hg ⟨hsh, htm⟩ hi h
  | array n e =>
    rw [hsh] at h; dsimp only at h
    obtain ⟨x, s1, h1, h⟩ := bind_ok.1 h
    obtain ⟨rfl, rfl⟩ := pure_ok.1 h
    obtain ⟨p, st⟩ := hg _ _ _ _ _ hi h1
    exact ⟨p, .array htm hsh st⟩
  | slice e =>
    rw [hsh] at h; dsimp only at h
    obtain ⟨x, s1, h1, h⟩ := bind_ok.1 h
    obtain ⟨rfl, rfl⟩ := pure_ok.1 h
    obtain ⟨p, st⟩ := hg _ _ _ _ _ hi h1
    exact ⟨p, .slice htm hsh st⟩
  | ptr e =>
    rw [hsh] at h; dsimp only at h
    obtain ⟨x, s1, h1, h⟩ := bind_ok.1 h
    obtain ⟨rfl, rfl⟩ := pure_ok.1 h
    obtain ⟨p, st⟩ := hg _ _ _ _ _ hi h1
    exact ⟨p, .ptr htm hsh st⟩
  | iface => rw [hsh] at h; exact checkIface_good hnc hg hsh htm hi h
  | func sig => rw [hsh] at h; exact (fail_ok.1 h).elim
  | other => rw [hsh] at h; exact (fail_ok.1 h).elim
  | scalar k =>
    rw [hsh] at h; dsimp only at h
    unfold checkScalar at h
    cases he : enumIndex prog t with
    | some i =>
      rw [he] at h
      obtain ⟨rfl, rfl⟩ := pure_ok.1 h
      exact ⟨.refl prog hi, .enum htm hsh he⟩
    | none =>
      rw [he] at h; dsimp only at h
      by_cases hc : (id && !validIDKind k) = true
      · rw [if_pos hc] at h; exact (fail_ok.1 h).elim
      · rw [if_neg hc] at h
        obtain ⟨rfl, rfl⟩ := pure_ok.1 h
        refine ⟨.refl prog hi, .data htm hsh he ?_⟩
        intro hid
        rw [hid] at hc
        simpa using hc

theorem check_good (hnc : NoClash prog) : ∀ fuel, Good prog (check prog fuel) := by
  intro fuel
  induction fuel with
  | zero => intro t id s o s' _ h; cases h
  | succ n ih => exact checkBody_good hnc ih

end

end TypeWalk
end Yarql
