import Verif.Spec.Schedule
import Verif.Spec.Demo

/-!
# C71: requests served at the same time
-/

namespace Yarql
namespace Schedule
open Resolver Yarql.Bind WorldSim

section
variable {F V W : Type}

theorem chained_append {w : W} {a b : List (Step W)} : Chained w (a ++ b) ↔ Chained w a ∧ Chained (endOf w a) b := by
  induction a generalizing w with
  | nil => simp [Chained, endOf]
  | cons s a ih => simp only [List.cons_append, Chained, endOf, ih]; exact and_assoc.symm

theorem endOf_append {w : W} {a b : List (Step W)} : endOf w (a ++ b) = endOf (endOf w a) b := by
  induction a generalizing w with
  | nil => rfl
  | cons s a ih => simp only [List.cons_append, endOf, ih]

theorem own_append {i : Nat} {a b : List (Step W)} : own i (a ++ b) = own i a ++ own i b := by
  simp [own]

theorem own_nil {i : Nat} {a : List (Step W)} (h : ∀ s ∈ a, s.who ≠ i) : own i a = [] := by
  simp only [own, List.map_eq_nil_iff, List.filter_eq_nil_iff, decide_eq_true_eq]
  exact h

theorem ne_of_own_nil {i : Nat} {a : List (Step W)} (h : own i a = []) : ∀ s ∈ a, s.who ≠ i := by
  simpa only [own, List.map_eq_nil_iff, List.filter_eq_nil_iff, decide_eq_true_eq] using h

/-- the step behind a recorded call -/
theorem own_split {i : Nat} {steps : List (Step W)} {log rest : List (W × W)} {e : W × W} (h : own i steps = log ++ e :: rest) :
    ∃ before after, steps = before ++ ⟨i, e.1, e.2⟩ :: after ∧ own i before = log ∧ own i after = rest := by
  induction steps generalizing log with
  | nil => simp [own] at h
  | cons s l ih =>
    by_cases hs : s.who = i
    · have h1 : own i (s :: l) = (s.pre, s.post) :: own i l := by simp [own, hs]
      rw [h1] at h
      cases log with
      | nil =>
        injection h with h2 h3
        subst h2
        exact ⟨[], l, by cases s; subst hs; rfl, rfl, h3⟩
      | cons x log =>
        injection h with h2 h3
        obtain ⟨b, a, e1, e2, e3⟩ := ih h3
        exact ⟨s :: b, a, by rw [e1]; rfl, by rw [← h2, ← e2]; simp [own, hs], e3⟩
    · have h1 : own i (s :: l) = own i l := by simp [own, hs]
      rw [h1] at h
      obtain ⟨b, a, e1, e2, e3⟩ := ih h
      exact ⟨s :: b, a, by rw [e1]; rfl, by rw [← e2]; simp [own, hs], e3⟩

variable [DecidableEq F]

/-- a call of a function of `env` leads from the one world to the other -/
def Genuine (env : Env F V W) (e : W × W) : Prop := ∃ f p a outs, env.call e.1 f p a = some (e.2, outs)

/-- the recorded calls of a request are calls of its functions -/
theorem log_genuine {schema : RSchema F V} {env : Env F V W} {t : Timing V W} {req : Request} {r : Bytes × List ReqErr} {log : List (W × W)}
    (h : Answers schema (timed env t) [] req (.ok r log)) : ∀ e ∈ log, Genuine env e := by
  obtain ⟨-, fuel, h⟩ := h
  have h := h (fun _ => schema.rootQueryValue)
  let o : Worldly F V (List (W × W)) := ⟨(timed env t).view, (timed env t).call, (timed env t).errOf, (timed env t).skip, (timed env t).ctxErr⟩
  have H : Shows (timed env t) o (fun _ => True) (fun l l' => l = l' ∧ ∀ e ∈ l, Genuine env e) := by
    constructor
    · rintro k w - ⟨rfl, -⟩ v; rfl
    · rintro k w - ⟨rfl, -⟩ v; rfl
    · rintro k w - ⟨rfl, -⟩ v; rfl
    · rintro k w - ⟨rfl, -⟩; rfl
    · intros; trivial
    · rintro k w ⟨rfl, hk⟩ f p a k1 outs hc -
      refine ⟨k1, hc, rfl, ?_⟩
      have hc : (env.call (t.call k.length) f p a).map (fun r => (k ++ [(t.call k.length, r.1)], r.2)) = some (k1, outs) := hc
      cases he : env.call (t.call k.length) f p a with
      | none => rw [he] at hc; cases hc
      | some x =>
        rw [he] at hc
        injection hc with hc
        injection hc with hc1 hc2
        subst hc1
        intro e hm
        rcases List.mem_append.1 hm with hm | hm
        · exact hk e hm
        · rw [List.mem_singleton.1 hm]
          exact ⟨f, p, a, x.2, he⟩
  obtain ⟨w1, -, e1, e2⟩ := resolve_sim (env := timed env t) (o := o) H (k := []) (w := []) ⟨rfl, fun _ h => nomatch h⟩ h trivial
  exact e2

/-- steps of others do not change what request `i` sees -/
theorem sees_others {jobs : List (Job F V W)} {Sees : Nat → W → W → Prop} (heq : ∀ i, Equivalence (Sees i))
    (hother : ∀ i j job, i ≠ j → jobs[j]? = some job → ∀ w f p a w1 outs, job.env.call w f p a = some (w1, outs) → Sees i w w1)
    {i : Nat} {w : W} {l : List (Step W)} (hg : ∀ s ∈ l, s.who ≠ i → ∃ job, jobs[s.who]? = some job ∧ Genuine job.env (s.pre, s.post))
    (hc : Chained w l) (hne : ∀ s ∈ l, s.who ≠ i) : Sees i w (endOf w l) := by
  induction l generalizing w with
  | nil => exact (heq i).refl w
  | cons s l ih =>
    obtain ⟨h1, h2⟩ := hc
    have hs := hne s (List.mem_cons_self ..)
    obtain ⟨job, hj, f, p, a, outs, hcall⟩ := hg s (List.mem_cons_self ..) hs
    have h3 : Sees i s.pre s.post := hother i s.who job (fun e => hs e.symm) hj _ _ _ _ _ _ hcall
    rw [h1] at h3
    exact (heq i).trans h3 (ih (fun s hs => hg s (List.mem_cons_of_mem _ hs)) h2 (fun s hs => hne s (List.mem_cons_of_mem _ hs)))

/-- **C71.** Let requests be served at the same time, one schema each, and let `Sees i` say which worlds look the same to the functions of
request `i`, where the functions of the other requests change nothing that request `i` sees. Then in every execution, however the calls
interleave, every request answers what it would answer if it were served alone. -/
theorem C71_schedules (jobs : List (Job F V W)) (Sees : Nat → W → W → Prop) (heq : ∀ i, Equivalence (Sees i))
    (hown : ∀ i job, jobs[i]? = some job → Determines job.env (Sees i))
    (hother : ∀ i j job, i ≠ j → jobs[j]? = some job → ∀ w f p a w1 outs, job.env.call w f p a = some (w1, outs) → Sees i w w1)
    {w0 : W} {steps : List (Step W)} {resp : List (Bytes × List ReqErr)} (ex : Execution jobs w0 steps resp)
    {i : Nat} {job : Job F V W} {r : Bytes × List ReqErr} (hj : jobs[i]? = some job) (hr : resp[i]? = some r) :
    ∃ w1, Answers job.schema job.env w0 job.req (.ok r w1) ∧ Sees i (endOf w0 steps) w1 := by
  have hgen : ∀ s ∈ steps, ∃ job, jobs[s.who]? = some job ∧ Genuine job.env (s.pre, s.post) := by
    intro s hs
    have hlt := ex.who s hs
    obtain ⟨job', hj'⟩ : ∃ job, jobs[s.who]? = some job := ⟨_, List.getElem?_eq_getElem hlt⟩
    obtain ⟨r', hr'⟩ : ∃ r, resp[s.who]? = some r := ⟨_, List.getElem?_eq_getElem (ex.all ▸ hlt)⟩
    obtain ⟨t, -, -, ha⟩ := ex.ran s.who job' r' hj' hr'
    refine ⟨job', hj', log_genuine ha (s.pre, s.post) ?_⟩
    simp only [own, List.mem_map, List.mem_filter, decide_eq_true_eq]
    exact ⟨s, ⟨hs, rfl⟩, rfl⟩
  obtain ⟨t, hlook, hctx, -, fuel, ha⟩ := ex.ran i job r hj hr
  have ha := ha (fun _ => job.schema.rootQueryValue)
  have hd := hown i job hj
  have H : Shows job.env (⟨(timed job.env t).view, (timed job.env t).call, (timed job.env t).errOf, (timed job.env t).skip,
      (timed job.env t).ctxErr⟩ : Worldly F V (List (W × W))) (fun log => log <+: own i steps)
      (fun log w => ∀ w', Visible w0 steps i log.length w' → Sees i w' w) := by
    constructor
    · intro log w hg hw v
      exact hd.view (hw _ (hlook _ _ hg.length_le)) v
    · intro log w hg hw v
      exact hd.errOf (hw _ (hlook _ _ hg.length_le)) v
    · intro log w hg hw v
      exact hd.skip (hw _ (hlook _ _ hg.length_le)) v
    · intro log w hg hw
      exact hd.ctxErr (hw _ (hctx _ hg.length_le))
    · intro log f p a k1 outs hc hg
      have hc : (job.env.call (t.call log.length) f p a).map (fun r => (log ++ [(t.call log.length, r.1)], r.2)) = some (k1, outs) := hc
      cases he : job.env.call (t.call log.length) f p a with
      | none => rw [he] at hc; cases hc
      | some x =>
        rw [he] at hc
        injection hc with hc
        injection hc with hc1 hc2
        subst hc1
        exact (List.prefix_append _ _).trans hg
    · intro log w hw f p a k1 outs hc hg
      have hc : (job.env.call (t.call log.length) f p a).map (fun r => (log ++ [(t.call log.length, r.1)], r.2)) = some (k1, outs) := hc
      cases he : job.env.call (t.call log.length) f p a with
      | none => rw [he] at hc; cases hc
      | some x =>
        obtain ⟨post, outs'⟩ := x
        rw [he] at hc
        injection hc with hc
        injection hc with hc1 hc2
        subst hc1 hc2
        obtain ⟨rest, hrest⟩ := hg
        rw [List.append_assoc] at hrest
        obtain ⟨before, after, e1, e2, e3⟩ := own_split hrest.symm
        dsimp only at e1
        have hch := ex.chained
        rw [e1, chained_append] at hch
        obtain ⟨hc1, hc2, hc3⟩ := hch
        have hpre : t.call log.length = endOf w0 before := hc2
        have hs := hw _ ⟨before, _, e1, by rw [e2], hpre⟩
        obtain ⟨w1, k1, k2⟩ := hd.call hs f p a post outs' he
        refine ⟨w1, k1, fun w' hv => ?_⟩
        obtain ⟨b, c, f1, f2, f3⟩ := hv
        -- the moment is behind the step
        have hlen : (own i b).length = log.length + 1 := by rw [f2]; simp
        have hpref : before ++ [⟨i, t.call log.length, post⟩] <+: b := by
          have p1 : before ++ [⟨i, t.call log.length, post⟩] <+: steps := ⟨after, by rw [e1]; simp⟩
          have p2 : b <+: steps := ⟨c, f1.symm⟩
          rcases List.prefix_or_prefix_of_prefix p1 p2 with h | h
          · exact h
          · obtain ⟨d, hd'⟩ := h
            have ho : own i b ++ own i d = log ++ [(t.call log.length, post)] := by
              rw [← own_append, hd', own_append, e2]; simp [own]
            have hl := congrArg List.length ho
            simp only [List.length_append, List.length_singleton] at hl
            rw [hlen] at hl
            cases d with
            | nil => rw [List.append_nil] at hd'; rw [hd']; exact List.prefix_refl _
            | cons x d =>
              exfalso
              -- the last step of b ++ x :: d is a step of i
              have hlast : (x :: d).getLast (by simp) = (⟨i, t.call log.length, post⟩ : Step W) := by
                have hh : (b ++ (x :: d)).getLast (by simp) = (before ++ [(⟨i, t.call log.length, post⟩ : Step W)]).getLast (by simp) := by
                  congr 1
                rw [List.getLast_append_of_ne_nil] at hh
                · simpa using hh
              have hmem : (⟨i, t.call log.length, post⟩ : Step W) ∈ x :: d := hlast ▸ List.getLast_mem _
              have : own i (x :: d) ≠ [] := fun h => ne_of_own_nil h _ hmem rfl
              exact this (List.length_eq_zero_iff.1 (by omega))
        obtain ⟨mid, hmid⟩ := hpref
        have hmid0 : own i mid = [] := by
          have : own i b = log ++ [(t.call log.length, post)] ++ own i mid := by
            rw [← hmid, own_append, own_append, e2]; simp [own]
          rw [this] at hlen
          simp only [List.length_append, List.length_singleton] at hlen
          exact List.length_eq_zero_iff.1 (by omega)
        have hsub : steps = before ++ ⟨i, t.call log.length, post⟩ :: (mid ++ c) := by rw [f1, ← hmid]; simp
        have hafter : after = mid ++ c := by
          rw [e1] at hsub
          have := List.append_cancel_left hsub
          injection this
        rw [hafter, chained_append] at hc3
        have hso := sees_others heq hother (i := i) (w := post) (l := mid)
          (fun s hs _ => hgen s (by rw [e1, hafter]; simp [hs])) hc3.1 (ne_of_own_nil hmid0)
        have : w' = endOf post mid := by rw [f3, ← hmid, endOf_append, endOf_append]; rfl
        rw [this]
        exact (heq i).trans ((heq i).symm hso) k2
  obtain ⟨w1, h1, h2⟩ := resolve_sim (env := job.env) H (k := []) (w := w0) (by
    rintro w' ⟨b, c, f1, f2, f3⟩
    have hch := ex.chained
    rw [f1, chained_append] at hch
    have hso := sees_others heq hother (i := i) (w := w0) (l := b) (fun s hs _ => hgen s (by rw [f1]; simp [hs])) hch.1
      (ne_of_own_nil (List.length_eq_zero_iff.1 f2))
    rw [f3]
    exact (heq i).symm hso) ha (List.prefix_refl _)
  exact ⟨w1, Answers.of h1 (fun e => nomatch e), h2 _ ⟨steps, [], by simp, rfl, rfl⟩⟩

/-! ## Executions exist -/

/-- the steps recorded in a log, as steps of request `i` -/
def stepsOf (i : Nat) (log : List (W × W)) : List (Step W) := log.map (fun e => ⟨i, e.1, e.2⟩)

omit [DecidableEq F] in
theorem own_stepsOf (i : Nat) (log : List (W × W)) : own i (stepsOf i log) = log := by
  unfold own stepsOf
  rw [List.filter_eq_self.2]
  · rw [List.map_map]; exact List.map_id' _ |>.trans rfl
  · intro s hs
    obtain ⟨e, -, rfl⟩ := List.mem_map.1 hs
    simp

/-- recording calls in the world -/
def logged (env : Env F V W) : Env F V (W × List (W × W)) :=
  reworld env {
    view := fun k v => env.view k.1 v
    call := fun k f p a => (env.call k.1 f p a).map (fun r => ((r.1, k.2 ++ [(k.1, r.1)]), r.2))
    errOf := fun k v => env.errOf k.1 v
    skip := fun k v => env.skip k.1 v
    ctxErr := fun k => env.ctxErr k.1 }

/-- the calls of a request served alone, in order -/
theorem log_exists {schema : RSchema F V} {env : Env F V W} {w w1 : W} {req : Request} {r : Bytes × List ReqErr} {fuel : Nat} {vals : UInt8 → V}
    (h : resolve fuel schema env vals w req = .ok r w1) (i : Nat) :
    ∃ log, resolve fuel schema (logged env) vals (w, []) req = .ok r (w1, log) ∧ Chained w (stepsOf i log) ∧ endOf w (stepsOf i log) = w1 := by
  have H : Shows (logged env) (⟨env.view, env.call, env.errOf, env.skip, env.ctxErr⟩ : Worldly F V W) (fun _ => True)
      (fun x k => k.1 = x ∧ Chained w (stepsOf i k.2) ∧ endOf w (stepsOf i k.2) = x) := by
    constructor
    · rintro x ⟨y, log⟩ - ⟨rfl, -⟩ v; rfl
    · rintro x ⟨y, log⟩ - ⟨rfl, -⟩ v; rfl
    · rintro x ⟨y, log⟩ - ⟨rfl, -⟩ v; rfl
    · rintro x ⟨y, log⟩ - ⟨rfl, -⟩; rfl
    · intros; trivial
    · rintro x ⟨y, log⟩ ⟨h0, h1, h2⟩ f p a k1 outs hc -
      dsimp only at h0 h1 h2
      subst h0
      dsimp only at hc
      refine ⟨(k1, log ++ [(y, k1)]), ?_, rfl, ?_, ?_⟩
      · show (env.call y f p a).map _ = _
        rw [hc]; rfl
      · show Chained w (List.map _ (log ++ [(y, k1)]))
        rw [List.map_append, chained_append]
        exact ⟨h1, h2.symm, trivial⟩
      · show endOf w (List.map _ (log ++ [(y, k1)])) = k1
        rw [List.map_append, endOf_append]
        rfl
  obtain ⟨⟨x, log⟩, k1, k2, k3, k4⟩ := resolve_sim (env := logged env) H (k := w) (w := (w, [])) ⟨rfl, trivial, rfl⟩ h trivial
  dsimp only at k2 k3 k4
  subst k2
  exact ⟨log, k1, k3, k4⟩

/-- a request served without interruption, among other steps -/
theorem ran_of_alone {job : Job F V W} {r : Bytes × List ReqErr} {w0 w1 : W} {before : List (Step W)} {i : Nat}
    (hb : ∀ s ∈ before, s.who ≠ i) (h : Answers job.schema job.env (endOf w0 before) job.req (.ok r w1)) :
    ∃ log, Chained (endOf w0 before) (stepsOf i log) ∧ endOf (endOf w0 before) (stepsOf i log) = w1 ∧
      ∀ after, (∀ s ∈ after, s.who ≠ i) → Ran w0 (before ++ stepsOf i log ++ after) i job r := by
  obtain ⟨-, fuel, h⟩ := h
  have h := h (fun _ => job.schema.rootQueryValue)
  obtain ⟨L, hrun, hch, hend⟩ := log_exists h i
  refine ⟨L, hch, hend, fun after ha => ?_⟩
  let t : Timing V W := ⟨fun k => endOf (endOf w0 before) (stepsOf i (L.take k)), fun k _ => endOf (endOf w0 before) (stepsOf i (L.take k)),
    fun k => endOf (endOf w0 before) (stepsOf i (L.take k))⟩
  have hown : own i (before ++ stepsOf i L ++ after) = L := by
    rw [own_append, own_append, own_nil hb, own_nil ha, own_stepsOf]; simp
  have hvis : ∀ k, k ≤ L.length → Visible w0 (before ++ stepsOf i L ++ after) i k (endOf (endOf w0 before) (stepsOf i (L.take k))) := by
    intro k hk
    refine ⟨before ++ stepsOf i (L.take k), stepsOf i (L.drop k) ++ after, ?_, ?_, ?_⟩
    · have : stepsOf i (L.take k) ++ stepsOf i (L.drop k) = stepsOf i L := by
        unfold stepsOf; rw [← List.map_append, List.take_append_drop]
      rw [← this]; simp
    · rw [own_append, own_nil hb, own_stepsOf, List.nil_append, List.length_take]; omega
    · rw [endOf_append]
  refine ⟨t, fun k v hk => hvis k (by rwa [hown] at hk), fun k hk => hvis k (by rwa [hown] at hk), ?_⟩
  have H : Shows (timed job.env t) (⟨(logged job.env).view, (logged job.env).call, (logged job.env).errOf, (logged job.env).skip,
      (logged job.env).ctxErr⟩ : Worldly F V (W × List (W × W))) (fun k => k.2 <+: L)
      (fun k log => log = k.2 ∧ k.1 = endOf (endOf w0 before) (stepsOf i k.2)) := by
    have take_of : ∀ {l : List (W × W)}, l <+: L → L.take l.length = l := fun h => (List.prefix_iff_eq_take.1 h).symm
    constructor
    · rintro ⟨x, log⟩ log' hg ⟨hl, hx⟩ v
      have hl : log = log' := hl.symm
      subst hl
      dsimp only at hx hg
      subst hx
      show job.env.view _ v = job.env.view (endOf _ (stepsOf i (L.take log.length))) v
      rw [take_of hg]
    · rintro ⟨x, log⟩ log' hg ⟨hl, hx⟩ v
      have hl : log = log' := hl.symm
      subst hl
      dsimp only at hx hg
      subst hx
      show job.env.errOf _ v = job.env.errOf (endOf _ (stepsOf i (L.take log.length))) v
      rw [take_of hg]
    · rintro ⟨x, log⟩ log' hg ⟨hl, hx⟩ v
      have hl : log = log' := hl.symm
      subst hl
      dsimp only at hx hg
      subst hx
      show job.env.skip _ v = job.env.skip (endOf _ (stepsOf i (L.take log.length))) v
      rw [take_of hg]
    · rintro ⟨x, log⟩ log' hg ⟨hl, hx⟩
      have hl : log = log' := hl.symm
      subst hl
      dsimp only at hx hg
      subst hx
      show job.env.ctxErr _ = job.env.ctxErr (endOf _ (stepsOf i (L.take log.length)))
      rw [take_of hg]
    · rintro ⟨x, log⟩ f p a ⟨x1, log1⟩ outs hc hg
      have hc : (job.env.call x f p a).map (fun r => ((r.1, log ++ [(x, r.1)]), r.2)) = some ((x1, log1), outs) := hc
      cases he : job.env.call x f p a with
      | none => rw [he] at hc; cases hc
      | some y => rw [he] at hc; cases hc; exact (List.prefix_append _ _).trans hg
    · rintro ⟨x, log⟩ log' ⟨hl, hx⟩ f p a ⟨x1, log1⟩ outs hc hg
      have hc : (job.env.call x f p a).map (fun r => ((r.1, log ++ [(x, r.1)]), r.2)) = some ((x1, log1), outs) := hc
      have hl : log = log' := hl.symm
      subst hl
      dsimp only at hx hg
      cases he : job.env.call x f p a with
      | none => rw [he] at hc; cases hc
      | some y =>
        rw [he] at hc
        cases hc
        have htake : L.take log.length = log := take_of ((List.prefix_append _ _).trans hg)
        have htc : t.call log.length = x := by
          show endOf _ (stepsOf i (L.take log.length)) = x
          rw [htake, hx]
        refine ⟨log ++ [(x, y.1)], ?_, rfl, ?_⟩
        · show (job.env.call (t.call log.length) f p a).map (fun r => (log ++ [(t.call log.length, r.1)], r.2)) = _
          rw [htc, he]; rfl
        · show y.1 = endOf _ (List.map _ (log ++ [(x, y.1)]))
          rw [List.map_append, endOf_append]; rfl
  obtain ⟨log, k1, k2, -⟩ := resolve_sim (env := timed job.env t) H (k := (endOf w0 before, [])) (w := []) ⟨rfl, rfl⟩ hrun (List.prefix_refl _)
  have k2 : log = L := k2
  rw [hown, ← k2]
  exact Answers.of k1 (fun e => nomatch e)

theorem serially_executes {w w1 : W} {jobs : List (Job F V W)} {resp : List (Bytes × List ReqErr)} (h : Serially w jobs resp w1) :
    ∀ (w0 : W) (n : Nat) (before : List (Step W)), w = endOf w0 before → (∀ s ∈ before, s.who < n) →
      ∃ rest, Chained w rest ∧ (∀ s ∈ rest, n ≤ s.who ∧ s.who < n + jobs.length) ∧ endOf w rest = w1 ∧ resp.length = jobs.length ∧
        ∀ after, (∀ s ∈ after, n + jobs.length ≤ s.who) → ∀ i job r, jobs[i]? = some job → resp[i]? = some r →
          Ran w0 (before ++ rest ++ after) (n + i) job r := by
  induction h with
  | nil =>
    intro w0 n before _ _
    exact ⟨[], trivial, (fun _ h => nomatch h), rfl, rfl, fun _ _ i job r h => by simp at h⟩
  | @cons w wa w2 job jobs r rs hj hrest ih =>
    intro w0 n before hw hb
    subst hw
    obtain ⟨log, h1, h2, h3⟩ := ran_of_alone (i := n) (fun s hs => Nat.ne_of_lt (hb s hs)) hj
    have hlog : ∀ s ∈ stepsOf n log, s.who = n := by
      intro s hs
      obtain ⟨e, -, rfl⟩ := List.mem_map.1 hs
      rfl
    obtain ⟨rest, k1, k2, k3, k4, k5⟩ := ih w0 (n + 1) (before ++ stepsOf n log) (by rw [endOf_append, h2]) (by
      intro s hs
      rcases List.mem_append.1 hs with hs | hs
      · have := hb s hs; omega
      · rw [hlog s hs]; omega)
    refine ⟨stepsOf n log ++ rest, ?_, ?_, ?_, by simp [k4], ?_⟩
    · rw [chained_append, h2]; exact ⟨h1, k1⟩
    · intro s hs
      rcases List.mem_append.1 hs with hs | hs
      · rw [hlog s hs, List.length_cons]; omega
      · have := k2 s hs; rw [List.length_cons]; omega
    · rw [endOf_append, h2, k3]
    · intro after ha i job' r' hi hr
      cases i with
      | zero =>
        injection hi with hi; injection hr with hr
        subst hi hr
        have := h3 (rest ++ after) (by
          intro s hs
          rcases List.mem_append.1 hs with hs | hs
          · have := k2 s hs; omega
          · have := ha s hs; rw [List.length_cons] at this; omega)
        simpa [List.append_assoc] using this
      | succ i =>
        have := k5 after (by intro s hs; have := ha s hs; rw [List.length_cons] at this; omega) i job' r' hi hr
        rw [show n + (i + 1) = n + 1 + i by omega]
        simpa [List.append_assoc] using this

/-- Serving the requests one after the other is one of the executions. -/
theorem C71_serial {w w1 : W} {jobs : List (Job F V W)} {resp : List (Bytes × List ReqErr)} (h : Serially w jobs resp w1) :
    ∃ steps, Execution jobs w steps resp ∧ endOf w steps = w1 := by
  obtain ⟨rest, h1, h2, h3, h4, h5⟩ := serially_executes h w 0 [] rfl (fun _ h => nomatch h)
  refine ⟨rest, ⟨h1, fun s hs => by have := h2 s hs; omega, h4, fun i job r hi hr => ?_⟩, h3⟩
  have := h5 [] (fun _ h => nomatch h) i job r hi hr
  simpa using this

/-- Requests whose functions change nothing: every execution gives every request the response it gets alone. -/
theorem C71_readonly (jobs : List (Job F V W))
    (hro : ∀ job ∈ jobs, ∀ w f p a w1 outs, job.env.call w f p a = some (w1, outs) → w1 = w)
    {w0 : W} {steps : List (Step W)} {resp : List (Bytes × List ReqErr)} (ex : Execution jobs w0 steps resp)
    {i : Nat} {job : Job F V W} {r : Bytes × List ReqErr} (hj : jobs[i]? = some job) (hr : resp[i]? = some r) :
    Answers job.schema job.env w0 job.req (.ok r w0) := by
  have hmem : ∀ {j job}, jobs[j]? = some job → job ∈ jobs := fun h => List.mem_of_getElem? h
  obtain ⟨w1, h1, h2⟩ := C71_schedules jobs (fun _ w w' => w = w') (fun _ => ⟨fun _ => rfl, fun h => h.symm, fun h h' => h.trans h'⟩)
    (fun i job hj => ⟨fun h v => by rw [h], fun h v => by rw [h], fun h v => by rw [h], fun h => by rw [h],
      fun h f p a w1 outs hc => ⟨w1, by rw [← h]; exact hc, rfl⟩⟩)
    (fun i j job _ hj w f p a w1 outs hc => (hro job (hmem hj) w f p a w1 outs hc).symm) ex hj hr
  have hend : ∀ (l : List (Step W)) (w : W), (∀ s ∈ l, s.post = s.pre) → Chained w l → endOf w l = w := by
    intro l
    induction l with
    | nil => intro w _ _; rfl
    | cons s l ih =>
      intro w h hc
      have e := h s (List.mem_cons_self ..)
      show endOf s.post l = w
      rw [ih s.post (fun s hs => h s (List.mem_cons_of_mem _ hs)) hc.2, e, hc.1]
  have : endOf w0 steps = w0 := by
    refine hend steps w0 (fun s hs => ?_) ex.chained
    have hlt := ex.who s hs
    obtain ⟨job', hj'⟩ : ∃ job, jobs[s.who]? = some job := ⟨_, List.getElem?_eq_getElem hlt⟩
    obtain ⟨r', hr'⟩ : ∃ r, resp[s.who]? = some r := ⟨_, List.getElem?_eq_getElem (ex.all ▸ hlt)⟩
    obtain ⟨t, -, -, ha⟩ := ex.ran s.who job' r' hj' hr'
    obtain ⟨f, p, a, outs, hc⟩ := log_genuine ha (s.pre, s.post) (by
      simp only [own, List.mem_map, List.mem_filter, decide_eq_true_eq]
      exact ⟨s, ⟨hs, rfl⟩, rfl⟩)
    exact hro job' (hmem hj') _ _ _ _ _ _ hc
  rw [this] at h2
  rw [← h2] at h1
  exact h1

end
end Schedule
end Yarql

/-! ## Two requests that count -/

namespace Yarql
namespace Schedule
open Resolver Yarql.Bind WorldSim

namespace CountDemo
open Demo (D noStack request)

/-- Two counters; the functions of request `i` advance and return counter `i`. -/
def count (i : Nat) : Env Unit D (Nat × Nat) :=
  reworld Demo.env {
    view := fun _ => Demo.view []
    call := fun w _ _ _ => if i = 0 then some ((w.1 + 1, w.2), [.int w.1]) else some ((w.1, w.2 + 1), [.int w.2])
    errOf := fun _ _ => none
    skip := fun _ _ => false
    ctxErr := fun _ => none }

/-- One counter that everybody advances. -/
def shared : Env Unit D Nat :=
  reworld Demo.env {
    view := fun _ => Demo.view []
    call := fun w _ _ _ => some (w + 1, [.int w])
    errOf := fun _ _ => none
    skip := fun _ _ => false
    ctxErr := fun _ => none }

def query : Request := request b%"{a:add b:add}"

def jobs : List (Job Unit D (Nat × Nat)) := [⟨Demo.schema, count 0, query⟩, ⟨Demo.schema, count 1, query⟩]
def sharedJobs : List (Job Unit D Nat) := [⟨Demo.schema, shared, query⟩, ⟨Demo.schema, shared, query⟩]

/-- the first request is interrupted by the whole of the second -/
def steps : List (Step (Nat × Nat)) := [⟨0, (5, 7), (6, 7)⟩, ⟨1, (6, 7), (6, 8)⟩, ⟨1, (6, 8), (6, 9)⟩, ⟨0, (6, 9), (7, 9)⟩]
def sharedSteps : List (Step Nat) := [⟨0, 5, 6⟩, ⟨1, 6, 7⟩, ⟨1, 7, 8⟩, ⟨0, 8, 9⟩]

def sees (i : Nat) (w w' : Nat × Nat) : Prop := if i = 0 then w.1 = w'.1 else if i = 1 then w.2 = w'.2 else True

def same {A : Type} [DecidableEq A] (x : R A (Bytes × List ReqErr)) (b : Bytes) (w : A) : Bool :=
  match x with
  | .ok (b', []) w' => decide (b' = b ∧ w' = w)
  | _ => false

theorem of_same {A : Type} [DecidableEq A] {x : R A (Bytes × List ReqErr)} {b : Bytes} {w : A} (h : same x b w = true) : x = .ok (b, []) w := by
  unfold same at h
  split at h
  · obtain ⟨rfl, rfl⟩ := of_decide_eq_true h
    rfl
  · cases h

theorem answer {F V A : Type} [DecidableEq F] [DecidableEq A] {schema : RSchema F V} {env : Env F V A} {w w1 : A} {req : Request} {fuel : Nat} {vals : UInt8 → V}
    {b : Bytes} (h : same (resolve fuel schema env vals w req) b w1 = true) : Answers schema env w req (.ok (b, []) w1) :=
  Answers.of (of_same h) (fun e => nomatch e)

theorem execution : Execution jobs (5, 7) steps [(b%"{\"data\":{\"a\":5,\"b\":6}}", []), (b%"{\"data\":{\"a\":7,\"b\":8}}", [])] := by
  refine ⟨⟨rfl, rfl, rfl, rfl, trivial⟩, by decide, rfl, ?_⟩
  have vis0 : ∀ k, k ≤ 2 → Visible (5, 7) steps 0 k (match k with | 0 => (5, 7) | 1 => (6, 8) | _ => (7, 9)) := by
    intro k hk
    match k, hk with
    | 0, _ => exact ⟨[], steps, rfl, rfl, rfl⟩
    | 1, _ => exact ⟨steps.take 2, steps.drop 2, rfl, rfl, rfl⟩
    | 2, _ => exact ⟨steps, [], rfl, rfl, rfl⟩
  have vis1 : ∀ k, k ≤ 2 → Visible (5, 7) steps 1 k (match k with | 0 => (6, 7) | 1 => (6, 8) | _ => (6, 9)) := by
    intro k hk
    match k, hk with
    | 0, _ => exact ⟨steps.take 1, steps.drop 1, rfl, rfl, rfl⟩
    | 1, _ => exact ⟨steps.take 2, steps.drop 2, rfl, rfl, rfl⟩
    | 2, _ => exact ⟨steps.take 3, steps.drop 3, rfl, rfl, rfl⟩
  intro i job r hj hr
  match i with
  | 0 =>
    cases hj; cases hr
    refine ⟨⟨fun k => if k = 0 then (5, 7) else (6, 9), fun k _ => match k with | 0 => (5, 7) | 1 => (6, 8) | _ => (7, 9),
      fun k => match k with | 0 => (5, 7) | 1 => (6, 8) | _ => (7, 9)⟩, fun k v hk => vis0 k hk, fun k hk => vis0 k hk, ?_⟩
    exact answer (fuel := 40) (vals := noStack) (by decide +kernel)
  | 1 =>
    cases hj; cases hr
    refine ⟨⟨fun k => if k = 0 then (6, 7) else (6, 8), fun k _ => match k with | 0 => (6, 7) | 1 => (6, 8) | _ => (6, 9),
      fun k => match k with | 0 => (6, 7) | 1 => (6, 8) | _ => (6, 9)⟩, fun k v hk => vis1 k hk, fun k hk => vis1 k hk, ?_⟩
    exact answer (fuel := 40) (vals := noStack) (by decide +kernel)
  | i + 2 => simp [jobs] at hj

/-- the hypotheses of `C71_schedules` hold for the two counters -/
example : ∃ w1, Answers Demo.schema (count 0) (5, 7) query (.ok (b%"{\"data\":{\"a\":5,\"b\":6}}", []) w1) ∧ sees 0 (endOf (5, 7) steps) w1 := by
  refine C71_schedules jobs sees ?_ ?_ ?_ execution (i := 0) (job := ⟨Demo.schema, count 0, query⟩) (r := (b%"{\"data\":{\"a\":5,\"b\":6}}", [])) rfl rfl
  · intro i
    unfold sees
    by_cases h0 : i = 0
    · simp only [h0, if_true]; exact ⟨fun _ => rfl, fun h => h.symm, fun h h' => h.trans h'⟩
    · by_cases h1 : i = 1
      · simp only [h1, if_true, Nat.one_ne_zero, if_false]; exact ⟨fun _ => rfl, fun h => h.symm, fun h h' => h.trans h'⟩
      · simp only [h0, h1, if_false]; exact ⟨fun _ => trivial, fun _ => trivial, fun _ _ => trivial⟩
  · intro i job hj
    match i with
    | 0 =>
      cases hj
      refine ⟨fun _ _ => rfl, fun _ _ => rfl, fun _ _ => rfl, fun _ => rfl, fun {w w'} h f p a w1 outs hc => ?_⟩
      have h : w.1 = w'.1 := h
      have hc : some ((w.1 + 1, w.2), [D.int w.1]) = some (w1, outs) := hc
      cases hc
      exact ⟨(w'.1 + 1, w'.2), by rw [h]; rfl, congrArg (· + 1) h⟩
    | 1 =>
      cases hj
      refine ⟨fun _ _ => rfl, fun _ _ => rfl, fun _ _ => rfl, fun _ => rfl, fun {w w'} h f p a w1 outs hc => ?_⟩
      have h : w.2 = w'.2 := h
      have hc : some ((w.1, w.2 + 1), [D.int w.2]) = some (w1, outs) := hc
      cases hc
      exact ⟨(w'.1, w'.2 + 1), by rw [h]; rfl, congrArg (· + 1) h⟩
    | i + 2 => simp [jobs] at hj
  · intro i j job hij hj w f p a w1 outs hc
    match j with
    | 0 =>
      cases hj
      have hc : some ((w.1 + 1, w.2), [D.int w.1]) = some (w1, outs) := hc
      cases hc
      unfold sees
      rw [if_neg hij]
      by_cases h1 : i = 1
      · rw [if_pos h1]
      · rw [if_neg h1]; trivial
    | 1 =>
      cases hj
      have hc : some ((w.1, w.2 + 1), [D.int w.2]) = some (w1, outs) := hc
      cases hc
      unfold sees
      by_cases h0 : i = 0
      · rw [if_pos h0]
      · rw [if_neg h0, if_neg hij]; trivial
    | j + 2 => simp [jobs] at hj

/-- The condition on the other requests' functions is needed: with one counter for both, the interrupted request answers what it cannot
answer alone. -/
theorem C71_needed : Execution sharedJobs 5 sharedSteps [(b%"{\"data\":{\"a\":5,\"b\":8}}", []), (b%"{\"data\":{\"a\":6,\"b\":7}}", [])] ∧
    ¬ ∃ w1, Answers Demo.schema shared 5 query (.ok (b%"{\"data\":{\"a\":5,\"b\":8}}", []) w1) := by
  constructor
  · refine ⟨⟨rfl, rfl, rfl, rfl, trivial⟩, by decide, rfl, ?_⟩
    have vis0 : ∀ k, k ≤ 2 → Visible 5 sharedSteps 0 k (match k with | 0 => 5 | 1 => 7 | _ => 9) := by
      intro k hk
      match k, hk with
      | 0, _ => exact ⟨[], sharedSteps, rfl, rfl, rfl⟩
      | 1, _ => exact ⟨sharedSteps.take 2, sharedSteps.drop 2, rfl, rfl, rfl⟩
      | 2, _ => exact ⟨sharedSteps, [], rfl, rfl, rfl⟩
    have vis1 : ∀ k, k ≤ 2 → Visible 5 sharedSteps 1 k (match k with | 0 => 6 | 1 => 7 | _ => 8) := by
      intro k hk
      match k, hk with
      | 0, _ => exact ⟨sharedSteps.take 1, sharedSteps.drop 1, rfl, rfl, rfl⟩
      | 1, _ => exact ⟨sharedSteps.take 2, sharedSteps.drop 2, rfl, rfl, rfl⟩
      | 2, _ => exact ⟨sharedSteps.take 3, sharedSteps.drop 3, rfl, rfl, rfl⟩
    intro i job r hj hr
    match i with
    | 0 =>
      cases hj; cases hr
      refine ⟨⟨fun k => if k = 0 then 5 else 8, fun k _ => match k with | 0 => 5 | 1 => 7 | _ => 9,
        fun k => match k with | 0 => 5 | 1 => 7 | _ => 9⟩, fun k v hk => vis0 k hk, fun k hk => vis0 k hk, ?_⟩
      exact answer (fuel := 40) (vals := noStack) (by decide +kernel)
    | 1 =>
      cases hj; cases hr
      refine ⟨⟨fun k => if k = 0 then 6 else 7, fun k _ => match k with | 0 => 6 | 1 => 7 | _ => 8,
        fun k => match k with | 0 => 6 | 1 => 7 | _ => 8⟩, fun k v hk => vis1 k hk, fun k hk => vis1 k hk, ?_⟩
      exact answer (fuel := 40) (vals := noStack) (by decide +kernel)
    | i + 2 => simp [sharedJobs] at hj
  · rintro ⟨w1, h⟩
    have h2 : Answers Demo.schema shared 5 query (.ok (b%"{\"data\":{\"a\":5,\"b\":6}}", []) 7) :=
      answer (fuel := 40) (vals := noStack) (by decide +kernel)
    have := C41_deterministic h h2
    injection this with h3 h4
    injection h3 with h5 h6
    exact absurd h5 (by decide)

end CountDemo
end Schedule
end Yarql
