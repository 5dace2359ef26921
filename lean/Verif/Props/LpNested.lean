/-
C140, C141: bounds on the blocking due to nested FIFO spin locks that are computed with integer linear programs.
-/
import Verif.Lemmas.LpNestedRun
import Verif.Lemmas.LpNestedDef
import Verif.Props.LpSpinExample

namespace Verif.SR.Lp
open Verif.Spec
open Verif.SR.Msrp (system exRun msrpFp_exRun system_exInfo)
open Verif.Nested (CritSec TaskCs Built)

theorem le_ceil_nat {n : ℕ} {q : ℚ} (h : (n : ℚ) ≤ q) : n ≤ ⌈q⌉.toNat := by
  have : (n : ℤ) ≤ ⌈q⌉ := by
    have h1 : (n : ℚ) ≤ (⌈q⌉ : ℚ) := h.trans (Int.le_ceil q)
    exact_mod_cast h1
  omega

/-- **C140**, for tasks without nesting: let the response-time analysis accept the tasks of each processor after
`apply_pfp_nested_fifo_spinlock_bounds`, let the solver find optimal solutions, and let no computed response time exceed
the one assumed in the computation of the bounds.  Then in every run of partitioned fixed-priority scheduling with the
MSRP no job takes longer than the computed response time, which is at most the deadline.  The priorities on
each processor decrease in the order of the tasks, no critical section is nested, and a job that had to wait for
a resource uses it.  A task may have several critical sections for a resource. -/
theorem C140_unnested_partial (info : Info) (solve : Solver) (hsolve : ∀ P x, solve P = some x → P.Maximum x)
    (fuel : ℕ) (hT : ∀ t ∈ info, 0 < t.period)
    (hnum : ∀ t ∈ info, ∀ r ∈ t.requests, r.num = 1)
    (hprio : info.Pairwise (fun a b => a.cluster = b.cluster → a.priority < b.priority))
    (bs : List ℕ)
    (hbs : nestedBounds solve info
      (info.map (fun t => t.requests.map (fun r => (⟨r.resId, r.length, none⟩ : CritSec)))) = some bs)
    (done : ℕ → List (Fp.FpTask × ℚ))
    (h : ∀ t ∈ info, Fp.boundResponseTimes fuel 1 (afterLpBounds info bs t.cluster) = some (true, done t.cluster)) :
    ∃ resp : Fin info.length → ℚ,
      (∀ t ∈ info, (done t.cluster).map Prod.snd =
        ((List.finRange info.length).filter (fun i => (info.get i).cluster = t.cluster)).map resp) ∧
      (∀ i, resp i ≤ (info.get i).deadline) ∧
      ((∀ i, resp i ≤ (info.get i).response) →
        ∀ R, MsrpFp (system info) (fun i => (info.get i).priority) R →
          (∀ s, R.issued s → R.enter s < R.acquire s → R.acquire s < R.leave s) → ∀ i (q t : ℕ),
          (R.work.release (i, q) : ℚ) + resp i ≤ t → Completed R.work R.sched (i, q) t) := by
  change nestedBounds solve info (unnested info) = some bs at hbs
  obtain ⟨e, hsome⟩ := bounds_eq hbs
  refine lp_safe info fuel hT hprio _ bs e _ (fun R hR => hR.toNpSpinFp) ?_ done h
  intro R hR W hW hinj H hb k q a hwin hle V hV
  have hs := hsome k
  simp only at hs ⊢
  rcases hP : nestedProgram info (unnested info) k (info.get k) with _ | P
  · rw [hP] at hs
    cases hs
  rw [hP] at hs
  simp only [Option.bind_some, nestedSolve] at hs ⊢
  rcases hx : solve P with _ | x
  · rw [hx] at hs
    cases hs
  rw [Option.map_some, Option.getD_some]
  have hmax := hsolve _ _ hx
  unfold nestedProgram at hP
  obtain ⟨g, _, rfl⟩ := Option.map_eq_some_iff.1 hP
  have hV' : ∀ u ∈ V, a ≤ u ∧ u < a + W k := fun u hu => ⟨(hV u hu).1, (hV u hu).2.1⟩
  obtain ⟨sec, src, arr, c, hv⟩ := hR.toNpSpinFp.view (Q := fun s z => R.enter z ≤ R.enter s) (by
    intro s q t h2 h3 h4 h5 h6
    obtain ⟨s', q', e1, e2, e3, e4, e5, e6⟩ := hR.fifo s q t h2 h3 h4 h5 h6
    exact ⟨s', q', e1, e2, e3, e4, e5, e6⟩) hwin hV
  have hN := nestCount_le hR.toNpSpinFp hb hT hW hnum hle hv hV'
  have hf := feasible_nested (i := (k : ℕ)) g.2 hN (fun s hs => unnested_none hs)
    (fun s hs hl => nestCount_local hv s hs hinj hl) (nestCount_arrival hinj)
    (fun cl hcl r => nestCount_fifo hR.toNpSpinFp hT hW hinj hnum hwin hv hV' cl hcl r)
  apply le_ceil_nat
  refine le_trans ?_ (hmax.best _ hf)
  rw [objective_nested, value_nested hN]
  exact_mod_cast nestCount_objective hR.toNpSpinFp hv

/-- **C140**, for tasks without nesting: if the assumed response times are at least the deadlines, accepted tasks meet
their deadlines. -/
theorem C140_unnested_schedulable_partial (info : Info) (solve : Solver)
    (hsolve : ∀ P x, solve P = some x → P.Maximum x) (fuel : ℕ) (hT : ∀ t ∈ info, 0 < t.period)
    (hnum : ∀ t ∈ info, ∀ r ∈ t.requests, r.num = 1)
    (hprio : info.Pairwise (fun a b => a.cluster = b.cluster → a.priority < b.priority))
    (hresp : ∀ t ∈ info, t.deadline ≤ t.response) (bs : List ℕ)
    (hbs : nestedBounds solve info
      (info.map (fun t => t.requests.map (fun r => (⟨r.resId, r.length, none⟩ : CritSec)))) = some bs)
    (h : ∀ t ∈ info, ∃ done, Fp.boundResponseTimes fuel 1 (afterLpBounds info bs t.cluster) = some (true, done))
    (R : LockRun info.length) (hR : MsrpFp (system info) (fun i => (info.get i).priority) R)
    (huse : ∀ s, R.issued s → R.enter s < R.acquire s → R.acquire s < R.leave s) :
    MeetsDeadlines R.work (system info).deadline R.sched := by
  obtain ⟨resp, _, h2, h3⟩ := C140_unnested_partial info solve hsolve fuel hT hnum hprio bs hbs
    (fun k => ((Fp.boundResponseTimes fuel 1 (afterLpBounds info bs k)).getD (true, [])).2) (by
      intro t ht
      obtain ⟨d, hd⟩ := h t ht
      simp only [hd, Option.getD_some])
  exact meets_of_resp h2 (h3 (fun i => (h2 i).trans (by exact_mod_cast hresp _ (List.get_mem info i))) R hR huse)

theorem nested_best {o : Option Program} {x : Key → ℚ} {v : ℕ} (p : Program → Prop)
    (ho : ∃ P ∈ o, p P) (h : ∀ P, p P → P.Maximum x)
    (hv : ∀ P, p P → ⌈termSum x P.objective⌉.toNat = v) : o.bind (nestedSolve best) = some v := by
  obtain ⟨P, hP, hp⟩ := ho
  rw [Option.mem_def] at hP
  rw [hP]
  have hm := h P hp
  have hx : ∃ x, P.Maximum x := ⟨x, hm⟩
  change nestedSolve best P = some v
  unfold nestedSolve best
  rw [dif_pos hx, Option.map_some, ← hv P hp]
  have h1 := hx.choose_spec.best x hm.feasible
  have h2 := hm.best _ hx.choose_spec.feasible
  rw [le_antisymm h2 h1]

theorem exNested : nestedBounds best (Msrp.exInfo 5)
    ((Msrp.exInfo 5).map (fun t => t.requests.map (fun r => (⟨r.resId, r.length, none⟩ : CritSec)))) =
      some [4, 2, 2] := by
  have hd : ∀ P : Program, ((P.objective = exObjective1 ∧ exMutex1 ∈ P.inequalities) ∨
      (P.objective = exObjective2 ∧ exMutex2 ∈ P.inequalities)) → ⌈termSum exDirect P.objective⌉.toNat = 2 := by
    rintro P (h | h) <;> rw [h.1] <;> decide +kernel
  have h0 : (nestedProgram (Msrp.exInfo 5) (unnested (Msrp.exInfo 5)) 0 ⟨0, 20, 5, 5, 0, 1, []⟩).bind
      (nestedSolve best) = some 4 :=
    nested_best (fun P => P.objective = exObjective1 ++ exObjective2 ∧ exMutex1 ∈ P.inequalities ∧
      exMutex2 ∈ P.inequalities ∧ P.integers = [] ∧ (∀ c ∈ P.equalities, termSum exDirect c.1 = c.2) ∧
      (∀ c ∈ P.inequalities, termSum exDirect c.1 ≤ c.2) ∧ ∀ v ∈ P.binaries, exDirect v = 0 ∨ exDirect v = 1)
      (by decide +kernel) (fun P h => by
        refine ⟨⟨h.2.2.2.2.1, h.2.2.2.2.2.1, by rw [h.2.2.2.1]; simp, h.2.2.2.2.2.2, fun v _ => exDirect_range v⟩,
          fun y hy => ?_⟩
        have e : termSum exDirect P.objective = 4 := by rw [h.1]; decide +kernel
        rw [e, h.1, termSum_append]
        have := (le_two hy).1 h.2.1
        have := (le_two hy).2 h.2.2.1
        linarith) (fun P h => by rw [h.1]; decide +kernel)
  have h1 : (nestedProgram (Msrp.exInfo 5) (unnested (Msrp.exInfo 5)) 1 ⟨1, 20, 10, 10, 0, 2, [⟨0, 1, 2, false⟩]⟩).bind
      (nestedSolve best) = some 2 :=
    nested_best (fun P => ((P.objective = exObjective1 ∧ exMutex1 ∈ P.inequalities) ∨
      (P.objective = exObjective2 ∧ exMutex2 ∈ P.inequalities)) ∧ P.integers = [] ∧
      (∀ c ∈ P.equalities, termSum exDirect c.1 = c.2) ∧
      (∀ c ∈ P.inequalities, termSum exDirect c.1 ≤ c.2) ∧ ∀ v ∈ P.binaries, exDirect v = 0 ∨ exDirect v = 1)
      (by decide +kernel) (fun P h => maximum_direct h.1 h.2.1 h.2.2) (fun P h => hd P h.1)
  have h2 : (nestedProgram (Msrp.exInfo 5) (unnested (Msrp.exInfo 5)) 2 ⟨1, 20, 10, 10, 1, 2, [⟨0, 1, 2, false⟩]⟩).bind
      (nestedSolve best) = some 2 :=
    nested_best (fun P => ((P.objective = exObjective1 ∧ exMutex1 ∈ P.inequalities) ∨
      (P.objective = exObjective2 ∧ exMutex2 ∈ P.inequalities)) ∧ P.integers = [] ∧
      (∀ c ∈ P.equalities, termSum exDirect c.1 = c.2) ∧
      (∀ c ∈ P.inequalities, termSum exDirect c.1 ≤ c.2) ∧ ∀ v ∈ P.binaries, exDirect v = 0 ∨ exDirect v = 1)
      (by decide +kernel) (fun P h => maximum_direct h.1 h.2.1 h.2.2) (fun P h => hd P h.1)
  exact mapM_three h0 h1 h2

/-- With an optimal solver the analysis accepts the tasks of `MsrpExample`, with response times of 5 on processor 0 and 4
on processor 1, which are no longer than assumed, and there is a run in which a job spins. -/
example : (∀ P x, best P = some x → P.Maximum x) ∧
    (∃ bs, nestedBounds best (Msrp.exInfo 5)
        ((Msrp.exInfo 5).map (fun t => t.requests.map (fun r => (⟨r.resId, r.length, none⟩ : CritSec)))) = some bs ∧
      ((Fp.boundResponseTimes 20 1 (afterLpBounds (Msrp.exInfo 5) bs 0)).map
        (fun r => (r.1, r.2.map Prod.snd)) = some (true, [5, 5])) ∧
      ((Fp.boundResponseTimes 20 1 (afterLpBounds (Msrp.exInfo 5) bs 1)).map
        (fun r => (r.1, r.2.map Prod.snd)) = some (true, [4]))) ∧
    (∀ t ∈ Msrp.exInfo 5, 0 < t.period ∧ t.deadline ≤ t.response ∧ ∀ r ∈ t.requests, r.num = 1) ∧
    (Msrp.exInfo 5).Pairwise (fun a b => a.cluster = b.cluster → a.priority < b.priority) ∧
    ∃ R, MsrpFp (system (Msrp.exInfo 5)) (fun i => ((Msrp.exInfo 5).get i).priority) R ∧
      (∀ s, R.issued s → R.enter s < R.acquire s → R.acquire s < R.leave s) ∧
      ∃ s, R.issued s ∧ R.enter s < R.acquire s := by
  have hm : MsrpFp (system (Msrp.exInfo 5)) (fun i => ((Msrp.exInfo 5).get i).priority) exRun := by
    have := msrpFp_exRun 5 (fun i => ((Msrp.exInfo 5).get i).priority)
    rw [← system_exInfo] at this
    exact this
  refine ⟨best_maximum, ⟨[4, 2, 2], exNested, by decide +kernel, by decide +kernel⟩, by decide,
    by decide, exRun, hm, ?_, ?_⟩
  · intro s _ h
    simp only [exRun] at h ⊢
    split_ifs at h ⊢
    · omega
    · omega
  · exact ⟨⟨((1 : Fin 3), 0), 0, 0⟩, ⟨show (1 : Fin 3) ≠ 0 by decide, rfl, rfl, rfl⟩, show 0 < 2 by omega⟩

/-! ### Memory accesses -/

/-- On the processors other than that of `ti`, no critical section is nested in one of a resource with a higher id. -/
def AscendingElsewhere (info : Info) (css : List TaskCs) (ti : TaskInfo) : Prop :=
  ∀ (x : ℕ) (tx : TaskInfo) (cs : TaskCs), info[x]? = some tx → css[x]? = some cs → tx.cluster ≠ ti.cluster →
    ∀ (d e : ℕ) (c p : CritSec), cs[d]? = some c → c.outer = some e → cs[e]? = some p → p.res ≤ c.res

theorem mem_secs_iff {info : Info} {css : List TaskCs} {s : TaskSec} :
    s ∈ taskSecs css (tasks info) ↔ info[s.1.1]? = some s.1.2 ∧ ∃ cs, css[s.1.1]? = some cs ∧ cs[s.2.2]? = some s.2.1 := by
  rw [mem_taskSecs]
  have h1 : s.1 ∈ tasks info ↔ info[s.1.1]? = some s.1.2 := by
    rw [mem_tasks]
    constructor
    · rintro ⟨i, h⟩
      rw [h]
      exact fin_get? i
    · intro h
      obtain ⟨hlt, h⟩ := List.getElem?_eq_some_iff.1 h
      exact ⟨⟨s.1.1, hlt⟩, Prod.ext rfl h.symm⟩
  rw [h1]
  have h2 : (csOf css s.1.1)[s.2.2]? = some s.2.1 ↔ ∃ cs, css[s.1.1]? = some cs ∧ cs[s.2.2]? = some s.2.1 := by
    unfold csOf
    rw [List.getD_eq_getElem?_getD]
    rcases css[s.1.1]? with _ | cs <;> simp
  rw [h2]

theorem le_foldl_max_nested : ∀ (l : List ℕ) (b a : ℕ), (a ≤ b ∨ a ∈ l) → a ≤ l.foldl max b := by
  intro l
  induction l with
  | nil => intro b a h; simpa using h
  | cons c l ih =>
    intro b a h
    rw [List.foldl_cons]
    apply ih
    rcases h with h | h
    · exact Or.inl (le_max_of_le_left h)
    · rcases List.mem_cons.1 h with rfl | h
      · exact Or.inl (le_max_right _ _)
      · exact Or.inr h

/-- **C141**: for critical sections that were added with `CriticalSectionsOfTask.add`, the construction of the program
for a task reads no vector out of range if and only if on all other processors no critical section is nested in one of a
resource with a higher id. -/
theorem C141_defined_iff (info : Info) (css : List TaskCs) (hb : ∀ cs ∈ css, Built cs) (i : ℕ) (ti : TaskInfo) :
    (nestedProgram info css i ti).isSome ↔ AscendingElsewhere info css ti := by
  unfold nestedProgram
  rw [Option.isSome_map]
  constructor
  · intro h x tx cs hx hcs hcl d e c p hc he hp
    have hs : (((x, tx), c, d) : TaskSec) ∈ taskSecs css (tasks info) := mem_secs_iff.2 ⟨hx, cs, hcs, hc⟩
    have hq : c.res < maxResource info css + 1 := by
      have : c.res ≤ maxResource info css :=
        le_foldl_max_nested _ _ _ (Or.inr (List.mem_map.2 ⟨_, hs, rfl⟩))
      omega
    obtain ⟨gh, hl, g, hg⟩ := isSome_of_guaranteedHeld _ h c.res hq _ hs rfl
    unfold updateGuaranteed at hg
    simp only [hcl, if_false, he] at hg
    have hcs' : csOf css x = cs := by
      unfold csOf
      rw [List.getD_eq_getElem?_getD, hcs]
      rfl
    rw [hcs', hp] at hg
    simp only at hg
    by_contra hlt
    push Not at hlt
    rw [List.getElem?_eq_none (by simp; omega)] at hg
    cases hg
  · intro h
    apply guaranteedHeld_isSome
    intro q _ gh hl s hs hr g
    obtain ⟨hx, cs, hcs, hc⟩ := mem_secs_iff.1 hs
    have hB := hb cs (List.mem_of_getElem? hcs)
    have hcs' : csOf css s.1.1 = cs := by
      unfold csOf
      rw [List.getD_eq_getElem?_getD, hcs]
      rfl
    unfold updateGuaranteed
    rw [hcs']
    split_ifs with hcl
    · rfl
    · rcases ho : s.2.1.outer with _ | e
      · rfl
      · have hlt := hB.outer_lt _ _ _ hc ho
        have hlen : s.2.2 < cs.length := (List.getElem?_eq_some_iff.1 hc).1
        have hp : cs[e]? = some cs[e] := List.getElem?_eq_getElem (by omega)
        have hres := h _ _ _ hx hcs hcl _ _ _ _ hc ho hp
        have hlt' : (cs[e]).res < (gh ++ [g]).length := by simp; omega
        simp only [hp, List.getElem?_eq_getElem hlt']
        have key := guaranteedLoop_isSome (gh := gh ++ [g]) hB (h _ _ _ hx hcs hcl) cs.length (cs[e]).outer
          ((gh ++ [g])[(cs[e]).res]) (by
            intro e' he'
            have hlt2 := hB.outer_lt _ _ _ hp he'
            have hp' : cs[e']? = some cs[e'] := List.getElem?_eq_getElem (by omega)
            have := h _ _ _ hx hcs hcl _ _ _ _ hp he' hp'
            exact ⟨by omega, _, hp', by omega⟩)
        obtain ⟨per, hper⟩ := Option.isSome_iff_exists.1 key
        rw [hper]
        rfl

/-- All variables 0. -/
theorem feasible_zero (info : Info) (css : List TaskCs) (i : ℕ) (ti : TaskInfo) (P : Program)
    (hP : nestedProgram info css i ti = some P) : P.Feasible (fun _ => 0) := by
  unfold nestedProgram at hP
  obtain ⟨g, _, rfl⟩ := Option.map_eq_some_iff.1 hP
  have hz : ∀ e : Exp, termSum (fun _ : Key => (0 : ℚ)) e = 0 := fun e => termSum_zero (fun _ _ => rfl)
  have h0 : (nestedObjective info css ti {}).Feasible (fun _ => 0) := by
    have := feasible_empty (x := fun _ : Key => (0 : ℚ)) (fun _ => ⟨le_rfl, zero_le_one⟩)
    exact ⟨this.eq, this.le, this.integer, this.binary, this.range⟩
  unfold remoteConstraints
  refine feasible_foldl (fun k _ P hP => feasible_foldl (fun q _ P hP => feasible_foldl (fun sr _ P hP => ?_) hP) hP) ?_
  · unfold remoteForResource
    dsimp only
    split_ifs
    · exact hP
    · exact feasible_addInequality hP (hz _).le
  · apply feasible_addInequality _ ((hz _).le.trans zero_le_one)
    apply feasible_addEquality _ (hz _)
    unfold nestingConstraints
    refine feasible_foldl (fun s _ P hP => feasible_foldl (fun v _ P hP => ?_) hP) ?_
    · split
      · split
        · exact feasible_addInequality hP (hz _).le
        · exact hP
      · exact feasible_addEquality hP (hz _)
    · unfold typeConstraints
      refine feasible_foldl (fun s _ P hP => feasible_foldl (fun v _ P hP => ?_) hP) h0
      exact feasible_addInequality (feasible_declareBinary (feasible_declareBinary hP (Or.inl rfl)) (Or.inl rfl))
        ((hz _).le.trans zero_le_one)

/-- **C141**: if resources are nested in ascending order only and the solver solves all feasible programs, each task gets
a bound on its blocking. -/
theorem C141_ascending_partial (info : Info) (css : List TaskCs) (hb : ∀ cs ∈ css, Built cs)
    (hasc : ∀ cs ∈ css, ∀ (d e : ℕ) (c p : CritSec), cs[d]? = some c → c.outer = some e → cs[e]? = some p →
      p.res ≤ c.res)
    (solve : Solver) (hsolve : ∀ P x, P.Feasible x → (solve P).isSome) :
    ∃ bs, nestedBounds solve info css = some bs ∧ bs.length = info.length := by
  have key : ∀ l : List (ℕ × TaskInfo), ∃ bs, l.mapM (fun t => (nestedProgram info css t.1 t.2).bind
      (nestedSolve solve)) = some bs ∧ bs.length = l.length := by
    intro l
    induction l with
    | nil => exact ⟨[], rfl, rfl⟩
    | cons t l ih =>
      obtain ⟨bs, h1, h2⟩ := ih
      obtain ⟨P, hP⟩ := Option.isSome_iff_exists.1 ((C141_defined_iff info css hb t.1 t.2).2 (by
        intro x tx cs _ hcs _
        exact hasc cs (List.mem_of_getElem? hcs)))
      obtain ⟨x, hx⟩ := Option.isSome_iff_exists.1 (hsolve P _ (feasible_zero _ _ _ _ _ hP))
      refine ⟨⌈termSum x P.objective⌉.toNat :: bs, ?_, by simp [h2]⟩
      rw [List.mapM_cons, h1, hP]
      simp [nestedSolve, hx]
  obtain ⟨bs, h1, h2⟩ := key (tasks info)
  refine ⟨bs, h1, ?_⟩
  rw [h2, tasks_eq]
  simp

/-- **C141**: what one would like to hold. -/
def AlwaysDefined : Prop :=
  ∀ (info : Info) (css : List TaskCs), css.length = info.length → (∀ cs ∈ css, Built cs) →
    ∀ (i : ℕ) (ti : TaskInfo), info[i]? = some ti → (nestedProgram info css i ti).isSome

/-- Task 0 has no critical sections.  On another processor, task 1 requests resource 0 while it holds resource 1. -/
def descInfo : Info := [⟨0, 10, 10, 10, 0, 1, []⟩, ⟨1, 10, 10, 10, 1, 3, []⟩]
def descCss : List TaskCs := [[], [⟨1, 2, none⟩, ⟨0, 1, some 0⟩]]

theorem built_desc : ∀ cs ∈ descCss, Built cs := by
  intro cs hcs
  simp only [descCss, List.mem_cons, List.not_mem_nil, or_false] at hcs
  rcases hcs with rfl | rfl
  · exact .nil
  · exact .add (res := 0) (len := 1) (outer := some 0) (.add (res := 1) (len := 2) (outer := none) .nil rfl) rfl

/-- **C141**: the analysis of nested spin locks may read a vector out of range. -/
theorem C141_always_defined_violated : ¬ AlwaysDefined := by
  intro h
  have := h descInfo descCss rfl built_desc 0 ⟨0, 10, 10, 10, 0, 1, []⟩ rfl
  revert this
  decide +kernel

/-- Two tasks on different processors that request resource 2 while they hold resources 0 or 1 and 0, and a task with a
request for resource 1. -/
def ascInfo : Info := [⟨0, 10, 10, 10, 0, 3, []⟩, ⟨1, 10, 10, 10, 1, 4, []⟩, ⟨2, 10, 10, 10, 1, 1, []⟩]
def ascCss : List TaskCs := [[⟨0, 2, none⟩, ⟨2, 1, some 0⟩], [⟨0, 3, none⟩, ⟨1, 2, some 0⟩, ⟨2, 1, some 1⟩], [⟨1, 1, none⟩]]

theorem built_asc : ∀ cs ∈ ascCss, Built cs := by
  intro cs hcs
  simp only [ascCss, List.mem_cons, List.not_mem_nil, or_false] at hcs
  rcases hcs with rfl | rfl | rfl
  · exact .add (res := 2) (len := 1) (outer := some 0) (.add (res := 0) (len := 2) (outer := none) .nil rfl) rfl
  · exact .add (res := 2) (len := 1) (outer := some 1) (.add (res := 1) (len := 2) (outer := some 0)
      (.add (res := 0) (len := 3) (outer := none) .nil rfl) rfl) rfl
  · exact .add (res := 1) (len := 1) (outer := none) .nil rfl

/-- Resources are nested in ascending order, and the program for the first task has 16 variables in the objective and 27
constraints.  For the tasks of `descInfo` it depends on the task whether the program is defined. -/
example : ascCss.length = ascInfo.length ∧ (∀ cs ∈ ascCss, Built cs) ∧
    (∀ cs ∈ ascCss, ∀ d < cs.length, ∀ e < cs.length, ∀ c ∈ cs[d]?, c.outer = some e → ∀ p ∈ cs[e]?, p.res ≤ c.res) ∧
    (∃ P, nestedProgram ascInfo ascCss 0 ⟨0, 10, 10, 10, 0, 3, []⟩ = some P ∧ P.objective.length = 16 ∧
      P.inequalities.length = 22 ∧ P.equalities.length = 5) ∧
    (nestedProgram descInfo descCss 0 ⟨0, 10, 10, 10, 0, 1, []⟩).isSome = false ∧
    (nestedProgram descInfo descCss 1 ⟨1, 10, 10, 10, 1, 3, []⟩).isSome = true := by
  refine ⟨rfl, built_asc, by decide, ?_, by decide +kernel, by decide +kernel⟩
  have : ((nestedProgram ascInfo ascCss 0 ⟨0, 10, 10, 10, 0, 3, []⟩).map (fun P =>
      (P.objective.length, P.inequalities.length, P.equalities.length))) = some (16, 22, 5) := by decide +kernel
  obtain ⟨P, hP, h⟩ := Option.map_eq_some_iff.1 this
  simp only [Prod.mk.injEq] at h
  exact ⟨P, hP, h⟩

end Verif.SR.Lp
