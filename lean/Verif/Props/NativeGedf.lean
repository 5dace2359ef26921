/-
Property C84: the native tests for global EDF accept only task sets that meet all
deadlines.
-/
import Verif.Lemmas.NativeLoadTest
import Verif.Lemmas.NativeRounds
import Verif.Props.Qpa

namespace Verif.Native
open Verif.Spec

variable {m : ℕ} {ts : TaskSet}

/-- Every job of every legal arrival sequence of the tasks meets its deadline under every
global EDF schedule on `m` processors. -/
abbrev Safe (m : ℕ) (ts : TaskSet) : Prop :=
  EdfSchedulable m (fun i => (ts.get i).wcet) (fun i => (ts.get i).period) (fun i => (ts.get i).deadline)

/-- The first of the tasks with the earliest point. -/
def firstMin (n : ℕ) (cur : ℕ → ℤ) : ℕ := (List.range n).foldl (fun b i => if cur i < cur b then i else b) 0

theorem firstMin_isQueue : IsQueue firstMin := by
  intro n cur hn
  have key : ∀ l : List ℕ, ∀ b : ℕ, b < n → (∀ i ∈ l, i < n) →
      l.foldl (fun b i => if cur i < cur b then i else b) b < n ∧
      cur (l.foldl (fun b i => if cur i < cur b then i else b) b) ≤ cur b ∧
      ∀ i ∈ l, cur (l.foldl (fun b i => if cur i < cur b then i else b) b) ≤ cur i := by
    intro l
    induction l with
    | nil => intro b hb _; exact ⟨hb, le_rfl, by simp⟩
    | cons a l ih =>
      intro b hb hl
      rw [List.foldl_cons]
      by_cases h : cur a < cur b
      · rw [if_pos h]
        obtain ⟨h1, h2, h3⟩ := ih a (hl a List.mem_cons_self) (fun i hi => hl i (List.mem_cons_of_mem _ hi))
        refine ⟨h1, h2.trans h.le, fun i hi => ?_⟩
        rcases List.mem_cons.1 hi with rfl | hi
        · exact h2
        · exact h3 i hi
      · rw [if_neg h]
        obtain ⟨h1, h2, h3⟩ := ih b hb (fun i hi => hl i (List.mem_cons_of_mem _ hi))
        refine ⟨h1, h2, fun i hi => ?_⟩
        rcases List.mem_cons.1 hi with rfl | hi
        · exact h2.trans (not_lt.1 h)
        · exact h3 i hi
  obtain ⟨h1, _, h3⟩ := key (List.range n) 0 hn (fun i hi => List.mem_range.1 hi)
  exact ⟨h1, fun i hi => h3 i (List.mem_range.2 hi)⟩

theorem safe_nil : Safe m [] := by
  intro w σ _ _ _ j
  exact j.1.elim0

theorem plain_of (hf : ts.hasOnlyFeasibleTasks = true) (hd : ∀ t ∈ ts, t.deadline ≤ t.period) : Plain ts := by
  intro t ht
  have := List.all_eq_true.1 hf t ht
  simp only [Task.isFeasible, Bool.and_eq_true, decide_eq_true_eq] at this
  exact ⟨this.2, by omega, hd t ht⟩

theorem constrained_of (h : ts.hasOnlyConstrainedDeadlines = true) : ∀ t ∈ ts, t.deadline ≤ t.period := by
  intro t ht
  have := List.all_eq_true.1 h t ht
  simpa [Task.hasConstrainedDeadline] using this

/-- A feasible task needs a processor. -/
theorem procs_pos (hp : Plain ts) (hne : ts ≠ []) (hU : ts.isNotOverutilized m = true) : 0 < m := by
  by_contra h0
  have : m = 0 := by omega
  subst this
  unfold TaskSet.isNotOverutilized at hU
  simp only [decide_eq_true_eq, Nat.cast_zero] at hU
  obtain ⟨t, rest, rfl⟩ := List.exists_cons_of_ne_nil hne
  unfold TaskSet.utilization at hU
  rw [List.map_cons, List.sum_cons] at hU
  obtain ⟨h1, h2, h3⟩ := hp t List.mem_cons_self
  have h4 : 0 < t.utilization := by
    unfold Task.utilization
    have : 0 < t.period := by omega
    positivity
  have h5 : 0 ≤ (rest.map Task.utilization).sum := by
    apply List.sum_nonneg
    intro x hx
    obtain ⟨s, _, rfl⟩ := List.mem_map.1 hx
    unfold Task.utilization
    positivity
  linarith

/-- The empty set is schedulable, and any other one has a processor. -/
theorem safe_of (hp : Plain ts) (hU : ts.isNotOverutilized m = true) (h : 0 < m → Safe m ts) : Safe m ts := by
  by_cases hne : ts = []
  · subst hne
    exact safe_nil
  · exact h (procs_pos hp hne hU)

theorem safe_gfb (hp : Plain ts) (hm : 0 < m) (h : gfbCore m ts = true) : Safe m ts := by
  rw [gfbCore_eq hp hm] at h
  exact of_python (GEdf.C15_gfb_safe m _ hm hp.proper h)

theorem safe_baker (hp : Plain ts) (hm : 0 < m) (h : bakerCore m ts = true) : Safe m ts := by
  rw [bakerCore_eq hp] at h
  exact of_python (GEdf.C54_bak_safe m _ hm hp.proper hp.constrained h)

theorem safe_rta (hp : Plain ts) (hm : 0 < m) (hw : ∀ t ∈ ts, t.deadline < 2 ^ 64) {fuel δ r : ℕ}
    (h : rtaCore fuel m δ r ts = some true) : Safe m ts :=
  of_python (GEdf.C20_rta_safe m _ hm hp.proper hp.constrained hp.feasible _ _ _ (rtaCore_eq hp hw h))

theorem pre_split (h : preconditions m ts = true) : Plain ts ∧ ts.isNotOverutilized m = true := by
  unfold preconditions at h
  simp only [Bool.and_eq_true] at h
  exact ⟨plain_of h.1.1.1 (constrained_of h.1.2), h.1.1.2⟩

/-- Four tasks for the examples below. -/
def sampleSet : TaskSet := [.init 1 8 4, .init 1 8 6, .init 1 10 8, .init 1 10 10]

/-- C84: the density test. -/
theorem C84_gfb_safe (m : ℕ) (ts : TaskSet) (h : gfb m ts = true) : Safe m ts := by
  unfold gfb at h
  by_cases hpre : preconditions m ts = true
  · obtain ⟨hp, hU⟩ := pre_split hpre
    rw [hpre] at h
    exact safe_of hp hU (fun hm => safe_gfb hp hm h)
  · simp [hpre] at h

example : gfb 2 sampleSet = true := by decide +kernel

/-- C84: Baker's test, for deadlines that do not exceed the period. -/
theorem C84_baker_safe_partial (m : ℕ) (ts : TaskSet) (hd : ∀ t ∈ ts, t.deadline ≤ t.period)
    (h : baker m ts = true) : Safe m ts := by
  unfold baker at h
  by_cases hpre : (ts.hasOnlyFeasibleTasks && ts.isNotOverutilized m && ts.hasNoSelfSuspendingTasks) = true
  · rw [hpre] at h
    simp only [Bool.and_eq_true] at hpre
    have hp := plain_of hpre.1.1 hd
    exact safe_of hp hpre.1.2 (fun hm => safe_baker hp hm h)
  · simp [hpre] at h

example : (∀ t ∈ sampleSet, t.deadline ≤ t.period) ∧ baker 2 sampleSet = true := by decide +kernel

/-- C84: the test of Bertogna, Cirinei and Lipari. -/
theorem C84_bcl_safe (m : ℕ) (ts : TaskSet) (h : bcl m ts = true) : Safe m ts := by
  unfold bcl at h
  by_cases hpre : preconditions m ts = true
  · obtain ⟨hp, hU⟩ := pre_split hpre
    rw [hpre] at h
    refine of_python (GEdf.C16_bcl_safe m _ hp.proper hp.constrained hp.feasible ?_)
    rw [← bclCore_eq hp]
    exact h
  · simp [hpre] at h

example : bcl 2 sampleSet = true := by decide +kernel

/-- C84: the iterative test of Bertogna, Cirinei and Lipari. -/
theorem C84_bcli_safe (fuel m maxRounds : ℕ) (ts : TaskSet) (hw : ∀ t ∈ ts, t.deadline < 2 ^ 64)
    (h : bcli fuel m ts maxRounds = some true) : Safe m ts := by
  unfold bcli at h
  by_cases hpre : preconditions m ts = true
  · obtain ⟨hp, hU⟩ := pre_split hpre
    refine safe_of hp hU (fun hm => ?_)
    rw [hpre] at h
    simp only [Bool.true_and, Bool.not_true, Bool.false_eq_true, if_false] at h
    by_cases hne : ts.isEmpty = true
    · rw [List.isEmpty_iff.1 hne]
      exact safe_nil
    · rw [if_neg hne] at h
      exact of_python (GEdf.C58_bcli_safe m _ hm hp.proper hp.constrained hp.feasible _ _ (bcliCore_eq hp hw h))
  · simp [hpre] at h

example : (∀ t ∈ sampleSet, t.deadline < 2 ^ 64) ∧ bcli 10 2 sampleSet = some true := by decide +kernel

/-- C84: the response-time analysis, for tasks that do not suspend (see C87). -/
theorem C84_rta_safe_partial (fuel m minDelta maxRounds : ℕ) (ts : TaskSet) (hw : ∀ t ∈ ts, t.deadline < 2 ^ 64)
    (_hs : ∀ t ∈ ts, t.selfSuspension = 0) (h : rta fuel m ts minDelta maxRounds = some true) : Safe m ts := by
  unfold rta at h
  by_cases hpre : (ts.hasOnlyFeasibleTasks && ts.isNotOverutilized m && ts.hasOnlyConstrainedDeadlines &&
    ts.hasOnlyFeasibleTasks) = true
  · rw [hpre] at h
    simp only [Bool.true_and, Bool.not_true, Bool.false_eq_true, if_false] at h
    simp only [Bool.and_eq_true] at hpre
    have hp := plain_of hpre.1.1.1 (constrained_of hpre.1.2)
    refine safe_of hp hpre.1.1.2 (fun hm => ?_)
    by_cases hne : ts.isEmpty = true
    · rw [List.isEmpty_iff.1 hne]
      exact safe_nil
    · rw [if_neg hne] at h
      exact safe_rta hp hm hw h
  · simp [hpre] at h

example : (∀ t ∈ sampleSet, t.deadline < 2 ^ 64) ∧ (∀ t ∈ sampleSet, t.selfSuspension = 0) ∧
    rta 10 2 sampleSet = some true := by decide +kernel

/-- C84: Baruah's test, whatever the order of equal points and whenever the time limit
strikes. -/
theorem C84_baruah_safe (pick : ℕ → (ℕ → ℤ) → ℕ) (hq : IsQueue pick) (late : ℕ → Bool) (fuel m : ℕ) (ts : TaskSet)
    (h : baruah pick late fuel m ts = some true) : Safe m ts := by
  unfold baruah at h
  by_cases hpre : preconditions m ts = true
  · obtain ⟨hp, hU⟩ := pre_split hpre
    refine safe_of hp hU (fun hm => ?_)
    rw [hpre] at h
    simp only [Bool.true_and, Bool.not_true, Bool.false_eq_true, if_false] at h
    by_cases hne : ts.isEmpty = true
    · rw [List.isEmpty_iff.1 hne]
      exact safe_nil
    · rw [if_neg hne] at h
      exact baruahCore_safe hp hm hq h
  · simp [hpre] at h

example : IsQueue firstMin ∧ baruah firstMin (fun _ => false) 40 2 sampleSet = some true :=
  ⟨firstMin_isQueue, by decide +kernel⟩

/-- C84: the test of Liu and Anderson, for deadlines that do not exceed the period, tasks
that do not suspend and no tolerated tardiness. -/
theorem C84_la_safe_partial (pick : ℕ → (ℕ → ℤ) → ℕ) (hq : IsQueue pick) (late : ℕ → ℕ → ℕ → Bool) (fuel m : ℕ)
    (ts : TaskSet) (hd : ∀ t ∈ ts, t.deadline ≤ t.period)
    (hs : ∀ t ∈ ts, t.selfSuspension = 0 ∧ t.tardinessThreshold = 0)
    (h : la pick late fuel m ts = some true) : Safe m ts := by
  unfold la at h
  by_cases hpre : (ts.hasOnlyFeasibleTasks && ts.isNotOverutilized m) = true
  · rw [hpre] at h
    simp only [Bool.true_and, Bool.not_true, Bool.false_eq_true, if_false] at h
    simp only [Bool.and_eq_true] at hpre
    have hp := plain_of hpre.1 hd
    refine safe_of hp hpre.2 (fun hm => ?_)
    by_cases hne : ts.isEmpty = true
    · rw [List.isEmpty_iff.1 hne]
      exact safe_nil
    · rw [if_neg hne] at h
      exact laCore_safe hp hs hm hq h
  · simp [hpre] at h

example : (∀ t ∈ sampleSet, t.deadline ≤ t.period) ∧ (∀ t ∈ sampleSet, t.selfSuspension = 0 ∧ t.tardinessThreshold = 0) ∧
    la firstMin (fun _ _ _ => false) 40 2 sampleSet = some true := by decide +kernel

/-- C84: the load test, for deadlines that do not exceed the period. -/
theorem C84_load_safe_partial (m : ℕ) (ts : TaskSet) (epsilon : ℚ) (he : 0 ≤ epsilon)
    (hd : ∀ t ∈ ts, t.deadline ≤ t.period) (h : load m ts epsilon = true) : Safe m ts := by
  unfold load at h
  by_cases hpre : (ts.hasOnlyFeasibleTasks && ts.isNotOverutilized m && ts.hasNoSelfSuspendingTasks) = true
  · rw [hpre] at h
    simp only [Bool.and_eq_true] at hpre
    have hp := plain_of hpre.1.1 hd
    exact safe_of hp hpre.1.2 (fun hm => loadCore_safe hp hm he h)
  · simp [hpre] at h

example : (0 : ℚ) ≤ 1 / 10 ∧ (∀ t ∈ sampleSet, t.deadline ≤ t.period) ∧ load 2 sampleSet = true := by decide +kernel

theorem orM_true {a b : Option Bool} (h : orM a b = some true) : a = some true ∨ b = some true := by
  unfold orM at h
  cases a with
  | none => simp at h
  | some x =>
    cases x with
    | true => exact Or.inl rfl
    | false => right; simpa using h

theorem gedf_safe {pick : ℕ → (ℕ → ℤ) → ℕ} (hq : IsQueue pick) {late : ℕ → Bool}
    {lateLa : ℕ → ℕ → ℕ → Bool} {fuel m : ℕ} {o : GedfOptions} {ts : TaskSet}
    (hd : ∀ t ∈ ts, t.deadline ≤ t.period) (hw : ∀ t ∈ ts, t.deadline < 2 ^ 64)
    (hs : ∀ t ∈ ts, t.selfSuspension = 0 ∧ t.tardinessThreshold = 0) {ffdbf : Option Bool}
    (hff : Plain ts → ffdbf = some true → Safe m ts)
    (h : gedf pick late lateLa fuel m o ts true ffdbf = some true) : Safe m ts := by
  unfold gedf at h
  by_cases hpre : (ts.hasOnlyFeasibleTasks && ts.isNotOverutilized m) = true
  · rw [hpre] at h
    simp only [Bool.true_and, Bool.not_true, Bool.false_eq_true, if_false] at h
    simp only [Bool.and_eq_true] at hpre
    have hp := plain_of hpre.1 hd
    refine safe_of hp hpre.2 (fun hm => ?_)
    by_cases hne : ts.isEmpty = true
    · rw [List.isEmpty_iff.1 hne]
      exact safe_nil
    rw [if_neg hne] at h
    have hla : (if o.wantLa = true then la pick lateLa fuel m ts false else some false) = some true → Safe m ts := by
      intro h
      by_cases hw' : o.wantLa = true
      · rw [if_pos hw'] at h
        unfold la at h
        simp only [Bool.false_and, Bool.false_eq_true, if_false] at h
        exact laCore_safe hp hs hm hq h
      · rw [if_neg hw'] at h
        cases h
    by_cases hsus : (!ts.hasNoSelfSuspendingTasks) = true
    · rw [if_pos hsus] at h
      exact hla h
    rw [if_neg hsus] at h
    by_cases h1 : (m == 1 && decide (ts.density ≤ 1)) = true
    · simp only [Bool.and_eq_true, beq_iff_eq, decide_eq_true_eq] at h1
      refine safe_gfb hp hm ?_
      unfold gfbCore
      rw [h1.1, decide_eq_true_eq]
      push_cast
      linarith [h1.2]
    rw [if_neg h1] at h
    by_cases h2 : baker m ts false = true
    · exact safe_baker hp hm h2
    rw [if_neg h2] at h
    rcases orM_true h with h | h
    · by_cases h3 : ts.hasOnlyConstrainedDeadlines = true
      · rw [if_pos h3] at h
        rcases orM_true h with h | h
        · exact safe_gfb hp hm (Option.some.inj h)
        · rcases orM_true h with h | h
          · by_cases h4 : o.wantRta = true
            · rw [if_pos h4] at h
              exact safe_rta hp hm hw h
            · rw [if_neg h4] at h
              cases h
          · rcases orM_true h with h | h
            · by_cases h4 : o.wantBaruah = true
              · rw [if_pos h4] at h
                exact baruahCore_safe hp hm hq h
              · rw [if_neg h4] at h
                cases h
            · exact hff hp h
      · rw [if_neg h3] at h
        cases h
    · rcases orM_true h with h | h
      · exact hla h
      · by_cases h4 : o.wantLoad = true
        · rw [if_pos h4] at h
          exact loadCore_safe hp hm (by norm_num) (Option.some.inj h)
        · rw [if_neg h4] at h
          cases h
  · simp [hpre] at h

/-- C84: the combined test, for deadlines that do not exceed the period, tasks that do not
suspend and no tolerated tardiness, whatever tests are selected. -/
theorem C84_gedf_safe_partial (pick : ℕ → (ℕ → ℤ) → ℕ) (hq : IsQueue pick) (late : ℕ → Bool)
    (lateLa : ℕ → ℕ → ℕ → Bool) (fuel m : ℕ) (o : GedfOptions) (ts : TaskSet)
    (hd : ∀ t ∈ ts, t.deadline ≤ t.period) (hw : ∀ t ∈ ts, t.deadline < 2 ^ 64)
    (hs : ∀ t ∈ ts, t.selfSuspension = 0 ∧ t.tardinessThreshold = 0)
    (h : gedf pick late lateLa fuel m o ts = some true) : Safe m ts :=
  gedf_safe hq hd hw hs (fun _ h => by cases h) h

/-- A set that the tests of Baruah and of Liu and Anderson and the response-time analysis
accept, but not the density test and Baker's test. -/
def heavySet : TaskSet := [.init 9 10 10, .init 1 20 7, .init 1 20 3]

example : (∀ t ∈ heavySet, t.deadline ≤ t.period) ∧ (∀ t ∈ heavySet, t.deadline < 2 ^ 64) ∧
    (∀ t ∈ heavySet, t.selfSuspension = 0 ∧ t.tardinessThreshold = 0) ∧
    gedf firstMin (fun _ => false) (fun _ _ _ => false) 100 2 ⟨1, true, false, false, false⟩ heavySet = some true ∧
    gedf firstMin (fun _ => false) (fun _ _ _ => false) 100 2 ⟨1, false, true, false, false⟩ heavySet = some true ∧
    gedf firstMin (fun _ => false) (fun _ _ _ => false) 100 2 ⟨1, false, false, false, true⟩ heavySet = some true ∧
    gedf firstMin (fun _ => false) (fun _ _ _ => false) 100 2 ⟨1, false, false, false, false⟩ heavySet = some false := by
  decide +kernel

/-! ### The Python interface -/

theorem toI_native (its : List GEdf.ITask) (hp : ∀ t ∈ its, 0 < t.deadline) :
    (getNativeTaskset its).map toI = its := by
  unfold getNativeTaskset
  rw [List.map_map]
  conv_rhs => rw [← List.map_id its]
  refine List.map_congr_left (fun t ht => ?_)
  have := hp t ht
  simp only [Function.comp, toI, Task.init]
  rw [if_neg (by omega)]
  rfl

theorem safe_native {its : List GEdf.ITask} (hp : ∀ t ∈ its, 0 < t.deadline) (h : Safe m (getNativeTaskset its)) :
    GEdf.Schedulable m its := by
  have hlen : its.length = (getNativeTaskset its).length := by simp [getNativeTaskset]
  refine edfSchedulable_cast hlen ?_ ?_ ?_ h <;>
  · intro i
    have := hp _ (List.get_mem its i)
    simp only [List.get_eq_getElem] at this
    simp only [GEdf.costs, GEdf.periods, GEdf.deadlines, getNativeTaskset, Task.init, List.get_eq_getElem,
      List.getElem_map]
    first
      | rfl
      | (change _ = if its[(i : ℕ)].deadline = 0 then its[(i : ℕ)].period else its[(i : ℕ)].deadline
         rw [if_neg (by omega)])

theorem edf_safe {pick : ℕ → (ℕ → ℤ) → ℕ} (hq : IsQueue pick) {late : ℕ → Bool}
    {lateLa : ℕ → ℕ → ℕ → Bool} {fuel m : ℕ} {its : List GEdf.ITask} {step : ℕ} {wantBaruah wantRta wantLoad : Bool}
    {ffdbf : Option Bool} (hff : Plain (getNativeTaskset its) → ffdbf = some true → Safe m (getNativeTaskset its))
    (hp : ∀ t ∈ its, 0 < t.deadline ∧ t.deadline < 2 ^ 64) (hd : m = 1 ∨ ∀ t ∈ its, t.deadline ≤ t.period)
    (h : isSchedulableCpp pick late lateLa fuel m its step wantBaruah wantRta wantLoad ffdbf = some true) :
    GEdf.Schedulable m its := by
  unfold isSchedulableCpp at h
  refine safe_native (fun t ht => (hp t ht).1) ?_
  by_cases hm : m = 1
  · rw [if_pos hm] at h
    subst hm
    exact C09_edf_sound _ _ h
  · rw [if_neg hm] at h
    have hd' := hd.resolve_left hm
    have key : ∀ t ∈ getNativeTaskset its, t.deadline ≤ t.period ∧ t.deadline < 2 ^ 64 ∧
        t.selfSuspension = 0 ∧ t.tardinessThreshold = 0 := by
      intro t ht
      obtain ⟨s, hs, rfl⟩ := List.mem_map.1 ht
      have h1 := hp s hs
      have h2 := hd' s hs
      simp only [Task.init]
      rw [if_neg (by omega)]
      exact ⟨h2, h1.2, trivial, trivial⟩
    exact gedf_safe hq (fun t ht => (key t ht).1) (fun t ht => (key t ht).2.1)
      (fun t ht => (key t ht).2.2) hff h

/-- C84: `edf.is_schedulable` with the native module: on one processor for arbitrary
deadlines, on several for deadlines that do not exceed the period. -/
theorem C84_edf_safe_partial (pick : ℕ → (ℕ → ℤ) → ℕ) (hq : IsQueue pick) (late : ℕ → Bool)
    (lateLa : ℕ → ℕ → ℕ → Bool) (fuel m : ℕ) (its : List GEdf.ITask) (step : ℕ) (wantBaruah wantRta wantLoad : Bool)
    (hp : ∀ t ∈ its, 0 < t.deadline ∧ t.deadline < 2 ^ 64) (hd : m = 1 ∨ ∀ t ∈ its, t.deadline ≤ t.period)
    (h : isSchedulableCpp pick late lateLa fuel m its step wantBaruah wantRta wantLoad = some true) :
    GEdf.Schedulable m its :=
  edf_safe hq (fun _ h => by cases h) hp hd h

example : isSchedulableCpp firstMin (fun _ => false) (fun _ _ _ => false) 100 2 [⟨9, 10, 10⟩, ⟨1, 20, 7⟩, ⟨1, 20, 3⟩] = some true := by
  decide +kernel

end Verif.Native
