import Verif.Proofs.Cache

/-!
# C10, C11, C12: the query cache
-/

namespace Yarql
namespace Cache

/-! ## C11 -/

/-- **C11** After every history of parses (with any eviction choice Go can make and any parser `F`) the cache
has at most 100 query lengths, one bucket per length, and at most 20 entries per length. -/
theorem C11_cache_bounded (F : Bytes → Option Bytes → Outcome) (ops : List Op)
    (hv : ValidRun F Ctx.new ops) :
    (run F Ctx.new ops).cache.length ≤ 100 ∧
    ((run F Ctx.new ops).cache.map (·.1)).Nodup ∧
    (∀ bucket ∈ (run F Ctx.new ops).cache, bucket.2.length ≤ 20 ∧
      ∀ e ∈ bucket.2, e.query.length = bucket.1) := by
  suffices h : Shape (run F Ctx.new ops).cache from
    ⟨h.lengths, h.nodup, fun kv hk => ⟨h.perLength kv hk, h.keyed kv hk⟩⟩
  suffices h : ∀ s, Shape s.cache → ValidRun F s ops → Shape (run F s ops).cache from
    h _ shape_nil hv
  clear hv
  induction ops with
  | nil => intro s hs _; exact hs
  | cons o os ih =>
    intro s hs hv
    refine ih _ ?_ hv.2
    unfold step
    simp only
    split
    · exact hs
    · split
      · exact setEntry_shape hs hv.1
      · exact hs

/-- The hypothesis of `C11_cache_bounded` is met by histories that do fill the cache: 21 different queries of
length 3 leave exactly 20 entries. -/
example :
    let F : Bytes → Option Bytes → Outcome := fun q _ => ⟨q, [], some 0, []⟩
    let ops := (List.range 21).map fun i => (⟨[1, 2, UInt8.ofNat i], none, 0, [], 0⟩ : Op)
    ((run F Ctx.new ops).cache.map (fun b => b.2.length)) = [20] := by decide +kernel

example (F : Bytes → Option Bytes → Outcome) (q : Bytes) :
    ValidRun F Ctx.new [⟨q, none, 0, [], 0⟩] := by
  simp [ValidRun, Op.valid, Ctx.new]

/-! ## C12 -/

/-- One call of `SetEntry`. -/
structure SetCall where
  query : Bytes
  bytecode : Bytes
  target : Option Bytes
  targetIdx : Option Nat
  frags : Slice
  victims : List Nat

/-- The cache after a sequence of `SetEntry` calls. -/
def afterSets (calls : List SetCall) : BC :=
  calls.foldl (fun c s => setEntry s.victims c s.query s.bytecode s.target s.targetIdx s.frags) []

/-- **C12** A lookup only ever succeeds for a pair (query bytes, operation target) that was stored, and returns
exactly what the most recent store for that very pair recorded, whatever was stored or evicted in between. -/
theorem C12_cache_never_serves_another_query (calls : List SetCall) (q : Bytes) (t : Option Bytes)
    (e : Entry) (h : getEntry (afterSets calls) q t = some e) :
    ∃ (earlier later : List SetCall) (s : SetCall), calls = earlier ++ s :: later ∧
      s.query = q ∧ s.target = t ∧
      (∀ s' ∈ later, ¬ (s'.query = q ∧ s'.target = t)) ∧
      e.bytecode = s.bytecode ∧ e.targetIdx = s.targetIdx ∧ e.query = q ∧ e.target = t := by
  unfold afterSets at h
  generalize hn : calls.length = n
  induction n generalizing calls with
  | zero =>
    rw [List.length_eq_zero_iff] at hn
    subst hn
    simp [getEntry, lookup] at h
  | succ n ih =>
    obtain ⟨cs, s, rfl⟩ : ∃ cs s, calls = cs ++ [s] := by
      refine ⟨calls.dropLast, calls.getLast (by intro h; simp [h] at hn), ?_⟩
      exact (List.dropLast_concat_getLast _).symm
    have hn' : cs.length = n := by simpa using hn
    rw [List.foldl_append] at h
    simp only [List.foldl_cons, List.foldl_nil] at h
    rcases find_after_set h with ⟨rfl, rfl, rfl⟩ | ⟨hne, h'⟩
    · exact ⟨cs, [], s, rfl, rfl, rfl, by simp, rfl, rfl, rfl, rfl⟩
    · obtain ⟨ea, la, s', rfl, h1, h2, h3, h4⟩ := ih cs h' hn'
      refine ⟨ea, la ++ [s], s', by simp, h1, h2, ?_, h4⟩
      intro x hx
      rcases List.mem_append.mp hx with hx | hx
      · exact h3 x hx
      · simp only [List.mem_singleton] at hx
        subst hx
        exact fun hh => hne ⟨hh.1.symm, hh.2.symm⟩

/-- **C12** (converse) What was stored last is found. -/
theorem C12_latest_store_is_found (calls : List SetCall) (s : SetCall) :
    getEntry (afterSets (calls ++ [s])) s.query s.target =
      some ⟨s.query, s.bytecode, s.target, s.targetIdx, s.frags⟩ := by
  unfold afterSets
  rw [List.foldl_append]
  simp only [List.foldl_cons, List.foldl_nil]
  obtain ⟨es, hes⟩ := lookup_setEntry_self s.victims
    (List.foldl (fun c s => setEntry s.victims c s.query s.bytecode s.target s.targetIdx s.frags) [] calls)
    s.query s.bytecode s.target s.targetIdx s.frags
  simp [getEntry, hes]

/-- Two queries of the same length and two targets are told apart. -/
example : (getEntry (afterSets [⟨[1], [10], none, some 0, ⟨0, 0⟩, []⟩, ⟨[2], [20], none, some 0, ⟨0, 0⟩, []⟩,
    ⟨[1], [30], some [9], none, ⟨0, 0⟩, []⟩]) [1] none).map (·.bytecode) = some [10] := by decide

/-! ## C10 -/

/-- **C10** as stated: a parse on a used context gives what the cache-less parser gives. -/
def Transparent (F : Bytes → Option Bytes → Outcome) : Prop :=
  ∀ (ops : List Op) (o : Op), ValidRun F Ctx.new (ops ++ [o]) →
    (step F (run F Ctx.new ops) o).2 = F o.query o.target

/-- A 324 byte document with one fragment. -/
def qA : Bytes := b%"fragment F on T{a} {...F}" ++ List.replicate 300 32
/-- A short document whose fragment comes second. -/
def qB : Bytes := b%"{...F} fragment F on T{a}"

/-- **C10 is false of the code** (with the default minimum length 300): parsing `qA`, then `qB`, then
`qA` again yields for `qA` the fragment position of `qB`, because the cache keeps the slice
`FragmentLocations` that every parse reuses (bytecode_cache.go:71, bytecode.go:48). -/
theorem C10_not_transparent : ¬ Transparent parseF := by
  intro h
  have := h [⟨qA, none, 300, [], 0⟩, ⟨qB, none, 300, [], 0⟩] ⟨qA, none, 300, [], 0⟩
    (by simp [ValidRun, Op.valid]; decide +kernel)
  revert this
  decide +kernel

/-- **C10 (partial)** For every history and every parser: bytecode, target and errors are always those of the
cache-less parser, the fragment table has the right length, and it is the right table on every cache miss and
for every query that defines no fragment.  Missing for the full property: the fragment table of a cache hit
for a query with fragments (false, see `C10_not_transparent`). -/
theorem C10_cache_transparent_partial (F : Bytes → Option Bytes → Outcome) (ops : List Op) (o : Op) :
    let out := (step F (run F Ctx.new ops) o).2
    let fresh := F o.query o.target
    out.res = fresh.res ∧ out.targetIdx = fresh.targetIdx ∧ out.errs = fresh.errs ∧
    out.frags.length = fresh.frags.length ∧ (fresh.frags = [] → out = fresh) ∧
    (getEntry (run F Ctx.new ops).cache o.query o.target = none ∨ o.query.length ≤ o.minLen →
      out = fresh) := by
  obtain ⟨h1, h2, h3, h4, h5⟩ := step_out (o := o) (run_inv (ops := ops) (inv_new F))
  have ext : ∀ a b : Outcome, a.res = b.res → a.targetIdx = b.targetIdx → a.errs = b.errs →
      a.frags = b.frags → a = b := by
    rintro ⟨⟩ ⟨⟩ h1 h2 h3 h4
    simp at h1 h2 h3 h4
    simp [*]
  refine ⟨h1, h2, h3, h4, fun hf => ext _ _ h1 h2 h3 ?_, fun hm => ext _ _ h1 h2 h3 (h5 hm)⟩
  rw [hf] at h4 ⊢
  exact List.length_eq_zero_iff.mp h4

/-- **C10 (partial)** Full transparency for every history in which all documents that define fragments have the
same fragment table as the query being parsed (for example because they are all that same query). -/
theorem C10_same_fragment_table_partial (F : Bytes → Option Bytes → Outcome) (ops : List Op) (o : Op)
    (h : ∀ o' ∈ ops, (F o'.query o'.target).frags = (F o.query o.target).frags ∨
      (F o'.query o'.target).frags = []) :
    (step F (run F Ctx.new ops) o).2 = F o.query o.target := by
  have hi := run_inv (ops := ops) (inv_new F)
  have hl : InvL (F o.query o.target).frags (run F Ctx.new ops) :=
    run_invL (inv_new F) (by simp [InvL, Ctx.new]) h
  obtain ⟨h1, h2, h3, h4, _, h6⟩ := C10_cache_transparent_partial F ops o
  by_cases hhit : getEntry (run F Ctx.new ops).cache o.query o.target = none ∨ o.query.length ≤ o.minLen
  · exact h6 hhit
  · simp only [not_or, Nat.not_le] at hhit
    obtain ⟨e, he⟩ := Option.ne_none_iff_exists'.mp hhit.1
    obtain ⟨⟨es, m1, m2⟩, m3, m4⟩ := getEntry_mem he
    obtain ⟨g1, g2, g3, g4, g5⟩ := hi.entries _ m1 e m2
    have hr := hl _ m1 e m2
    rw [m3, m4] at g1 g2 g3 g4
    rw [g4, List.take_length] at hr
    have hc : decide (o.query.length > o.minLen) = true := by simpa using hhit.2
    obtain ⟨p1, _⟩ := pushAll_facts o.extra ((run F Ctx.new ops).heap.read e.fragmentLocation) _ _
      (ok_zero hi.frag)
    unfold step
    simp only [hc, if_true, he]
    rw [p1, read_zero, hr, g1, g2, ← g3]
    rfl

/-- Not vacuous: the repeated `qA` is answered from the cache and its table is not empty. -/
example : (parseF qA none).frags = [1] ∧ (parseF qA none).errs = [] ∧
    (getEntry (run parseF Ctx.new [⟨qA, none, 300, [], 0⟩]).cache qA none).isSome := by
  decide +kernel

end Cache
end Yarql
