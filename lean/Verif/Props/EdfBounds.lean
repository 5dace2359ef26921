/-
Property C89: response-time bounds of `edf.bound_response_times`.
-/
import Verif.Model.EdfBounds
import Verif.Props.Da
import Verif.Props.GedfCombined
import Verif.Props.NativeGedf
import Verif.Lemmas.Witness

namespace Verif.GEdf
open Verif.Spec

/-- The numbers stored for the tasks bound the response times of all jobs under global
EDF. -/
def BoundsHold (m : ℕ) (ts : List ITask) (rs : List ℤ) : Prop :=
  rs.length = ts.length ∧
    EdfResponseTimesBounded m (fun i : Fin ts.length => (ts.get i).cost) (fun i => (ts.get i).period)
      (fun i => (ts.get i).deadline) (fun i => rs.getD i 0)

theorem daBounds_hold {m : ℕ} {ts : List ITask} {rs : List ℤ} (hp : Proper ts) (h : daBounds m ts = .bounds rs) :
    BoundsHold m ts rs := by
  unfold daBounds at h
  split at h
  · cases h
  · cases h
  · rename_i R hR
    injection h with h
    subst h
    refine ⟨List.length_ofFn, ?_⟩
    have := Da.C82_safe (ts := fun i : Fin ts.length => ⟨(ts.get i).cost, (ts.get i).period, (ts.get i).deadline⟩)
      (fun i => (hp _ (List.get_mem ts i)).1) hR
    have e : (fun i : Fin ts.length => (List.ofFn R).getD i 0) = R := by
      funext i
      simp [List.getD_eq_getElem?_getD]
    rw [e]
    exact this

theorem edfBounds_hold {sched : Option Bool} {fuel m step : ℕ} {ts : List ITask} {rs : List ℤ} (hm : 1 ≤ m)
    (hp : Proper ts) (hd : Constrained ts) (hs : sched = some true → Schedulable m ts)
    (h : edfBounds sched fuel m ts step = some (.bounds rs)) : BoundsHold m ts rs := by
  unfold edfBounds at h
  obtain ⟨s, hsched, h⟩ := Option.bind_eq_some_iff.1 h
  cases s with
  | false => exact daBounds_hold hp (Option.some.inj h)
  | true =>
    rw [if_pos rfl, Option.map_eq_some_iff] at h
    obtain ⟨r, hr, h⟩ := h
    have hsch := hs hsched
    have hf : Feasible ts := by
      intro t ht
      obtain ⟨i, hi⟩ := List.get_of_mem ht
      have := hsch.feasible hp.period i
      unfold costs deadlines at this
      rwa [hi] at this
    cases r with
    | some rs' =>
      injection h with h
      subst h
      obtain ⟨h1, h2⟩ := C20_response_times_safe m ts hm hp hd hf fuel _ _ _ hr
      refine ⟨h1, fun w σ hw hv he j t ht => ?_⟩
      obtain ⟨R, hR, -, hc⟩ := h2 w σ hw hv he j.1 j.2
      refine hc.mono ?_
      simp only [List.getD_eq_getElem?_getD, hR, Option.getD_some] at ht
      exact_mod_cast ht
    | none =>
      injection h with h
      subst h
      refine ⟨by simp, fun w σ hw hv he j t ht => (hsch w σ hw hv he j).mono ?_⟩
      have : (w.release j : ℤ) + (deadlines ts j.1 : ℕ) ≤ t := by
        have e : (ts.map (fun t => (t.deadline : ℤ))).getD (j.1 : ℕ) 0 = (deadlines ts j.1 : ℕ) := by
          simp [List.getD_eq_getElem?_getD, deadlines]
        rw [← e]
        exact ht
      exact_mod_cast this

/-- C89: for tasks with deadlines that do not exceed the periods and costs that do not
exceed the deadlines, the response times that `bound_response_times` stores are safe
(Python version of `is_schedulable`). -/
theorem C89_safe_partial (fuel m : ℕ) (ts : List ITask) (hm : 1 ≤ m) (hp : Proper ts) (hd : Constrained ts)
    (hf : Feasible ts) (step step' : ℕ) (want : WantBaruah) (wantRta : Bool) (rs : List ℤ)
    (h : edfBounds (isSchedulablePy fuel m ts step want wantRta) fuel m ts step' = some (.bounds rs)) :
    BoundsHold m ts rs :=
  edfBounds_hold hm hp hd (C57_is_schedulable_py_safe m ts hp hd hf fuel step want wantRta) h

/-- C89: the same with the native module. -/
theorem C89_native_safe_partial (pick : ℕ → (ℕ → ℤ) → ℕ) (hq : Native.IsQueue pick) (late : ℕ → Bool)
    (lateLa : ℕ → ℕ → ℕ → Bool) (fuel m : ℕ) (ts : List ITask) (hm : 1 ≤ m) (hp : Proper ts) (hd : Constrained ts)
    (hw : ∀ t ∈ ts, t.deadline < 2 ^ 64) (step step' : ℕ) (wantBaruah wantRta wantLoad : Bool) (rs : List ℤ)
    (h : edfBounds (Native.isSchedulableCpp pick late lateLa fuel m ts step wantBaruah wantRta wantLoad) fuel m ts step' =
      some (.bounds rs)) : BoundsHold m ts rs :=
  edfBounds_hold hm hp hd (Native.C84_edf_safe_partial pick hq late lateLa fuel m ts step wantBaruah wantRta wantLoad
    (fun t ht => ⟨(hp t ht).2, hw t ht⟩) (Or.inr hd)) h

theorem implicit_feasible {ts : List ITask} (hi : ∀ t ∈ ts, t.deadline = t.period) (h : ∀ t ∈ ts, t.cost ≤ t.period) :
    Constrained ts ∧ Feasible ts :=
  ⟨fun t ht => (hi t ht).le, fun t ht => by rw [hi t ht]; exact h t ht⟩

/-- C89: for implicit deadlines `bound_response_times` always ends without an exception.
It stores safe bounds, or returns `False` and no bounds exist. -/
theorem C89_implicit_complete (m : ℕ) (ts : List ITask) (hm : 1 ≤ m) (hp : Proper ts)
    (hi : ∀ t ∈ ts, t.deadline = t.period) (step step' : ℕ) (want : WantBaruah) (wantRta : Bool) :
    ∃ N, ∀ fuel ≥ N,
      (∃ rs, edfBounds (isSchedulablePy fuel m ts step want wantRta) fuel m ts step' = some (.bounds rs) ∧
        BoundsHold m ts rs) ∨
      (edfBounds (isSchedulablePy fuel m ts step want wantRta) fuel m ts step' = some .noBounds ∧
        ∀ rs, ¬ BoundsHold m ts rs) := by
  have hda : (∃ rs, daBounds m ts = .bounds rs ∧ BoundsHold m ts rs) ∨
      (daBounds m ts = .noBounds ∧ ∀ rs, ¬ BoundsHold m ts rs) := by
    rcases Da.C82_complete (m := m)
        (ts := fun i : Fin ts.length => ⟨(ts.get i).cost, (ts.get i).period, (ts.get i).deadline⟩)
        (fun i => (hp _ (List.get_mem ts i)).1) (fun i => hi _ (List.get_mem ts i)) with ⟨R, hR⟩ | ⟨h1, h2⟩
    · left
      have h : daBounds m ts = .bounds (List.ofFn R) := by
        unfold daBounds
        rw [hR]
      exact ⟨_, h, daBounds_hold hp h⟩
    · right
      refine ⟨?_, fun rs hrs => h2 _ hrs.2⟩
      unfold daBounds
      rw [h1]
  by_cases hc : ∀ t ∈ ts, t.cost ≤ t.period
  · obtain ⟨hd, hf⟩ := implicit_feasible hi hc
    obtain ⟨N1, hN1⟩ := C57_is_schedulable_py_terminates m ts hp hf step want wantRta
    obtain ⟨N2, hN2⟩ := C19_rta_terminates_partial m ts hp hd hf 25 step' (Or.inl (by norm_num))
    refine ⟨max N1 N2, fun fuel hfuel => ?_⟩
    obtain ⟨s, hs⟩ := Option.isSome_iff_exists.1 (hN1 fuel ((le_max_left _ _).trans hfuel))
    have key : ∀ rs, edfBounds (isSchedulablePy fuel m ts step want wantRta) fuel m ts step' = some (.bounds rs) →
        BoundsHold m ts rs := C89_safe_partial fuel m ts hm hp hd hf step step' want wantRta
    rw [hs] at key ⊢
    cases s with
    | false =>
      rcases hda with ⟨rs, h1, h2⟩ | ⟨h1, h2⟩
      · exact Or.inl ⟨rs, congrArg some h1, h2⟩
      · exact Or.inr ⟨congrArg some h1, h2⟩
    | true =>
      left
      have hr := hN2 fuel ((le_max_right _ _).trans hfuel)
      unfold rta at hr
      rw [Option.isSome_map] at hr
      obtain ⟨st, hst⟩ := Option.isSome_iff_exists.1 hr
      have : ∃ rs, edfBounds (some true) fuel m ts step' = some (.bounds rs) := by
        unfold edfBounds rtaBoundResponseTimes
        rw [hst]
        simp only [Option.bind_some, Option.map_some, if_true]
        split <;> exact ⟨_, rfl⟩
      obtain ⟨rs, hrs⟩ := this
      exact ⟨rs, hrs, key rs hrs⟩
  · refine ⟨0, fun fuel _ => ?_⟩
    have : isSchedulablePy fuel m ts step want wantRta = some false := by
      unfold isSchedulablePy
      rw [if_pos]
      rw [Bool.or_eq_true]
      right
      push Not at hc
      obtain ⟨t, ht, hlt⟩ := hc
      rw [Bool.not_eq_true', List.all_eq_false]
      exact ⟨t, ht, by simpa using hlt⟩
    rw [this]
    rcases hda with ⟨rs, h1, h2⟩ | ⟨h1, h2⟩
    · exact Or.inl ⟨rs, congrArg some h1, h2⟩
    · exact Or.inr ⟨congrArg some h1, h2⟩

/-- Three tasks; the first one has a deadline larger than its period and uses a whole
processor. -/
def lateSet : List ITask := [⟨2, 2, 8⟩, ⟨1, 3, 5⟩, ⟨1, 5, 2⟩]

/-- Two tasks for one processor. -/
def lateUni : List ITask := [⟨2, 6, 18⟩, ⟨5, 8, 5⟩]

theorem not_bounds_of_table {n m : ℕ} {C T D : Fin n → ℕ} {B : Fin n → ℤ} (P K : Fin n → ℕ)
    (tab : List (List (Job n))) (j : Job n) (x : ℕ) (hx : B j.1 = x) (h : tableEdf m C T D P K tab = true)
    (hj : tableDone C K tab j (j.2 * P j.1 + x) = false) : ¬ EdfResponseTimesBounded m C T D B := by
  intro hb
  obtain ⟨hs, hv, he⟩ := edf_of_table h
  have := hb _ _ hs hv he j (j.2 * P j.1 + x) (by
    rw [hx]
    change ((j.2 * P j.1 : ℕ) : ℤ) + x ≤ _
    push_cast
    exact le_rfl)
  rw [completed_table, hj] at this
  cases this

/-- C89 is violated for deadlines larger than the periods: a response time that
`bound_response_times` stores is exceeded, on two processors, and with the native module
also on one. -/
theorem C89_violated :
    (∃ ts rs, Proper ts ∧ edfBounds (isSchedulablePy 100 2 ts) 100 2 ts = some (.bounds rs) ∧
      ¬ BoundsHold 2 ts rs) ∧
    (∃ ts rs, Proper ts ∧ edfBounds (Native.isSchedulableCpp Native.firstMin (fun _ => false) (fun _ _ _ => false) 100 1 ts)
      100 1 ts = some (.bounds rs) ∧ ¬ BoundsHold 1 ts rs) := by
  refine ⟨⟨lateSet, [3, 2, 1], by decide, by decide +kernel,
      fun h => not_bounds_of_table (n := 3) ![2, 5, 5] ![4, 2, 2]
        [[(2, 0), (1, 0)], [(0, 0)], [(0, 0)], [(0, 1)], [(0, 1)], [(2, 1), (1, 1)], [(0, 2)], [(0, 2)], [(0, 3)], [(0, 3)]]
        (0, 2) 3 rfl (by decide +kernel) (by decide +kernel) h.2⟩,
    ⟨lateUni, [7, 5], by decide, by decide +kernel,
      fun h => not_bounds_of_table (n := 2) ![6, 8] ![2, 2]
        [[(1, 0)], [(1, 0)], [(1, 0)], [(1, 0)], [(1, 0)], [(0, 0)], [(0, 0)], [(0, 1)], [(1, 1)], [(1, 1)], [(1, 1)],
          [(1, 1)], [(1, 1)], [(0, 1)]]
        (0, 1) 7 rfl (by decide +kernel) (by decide +kernel) h.2⟩⟩

/-- C89: a set that `is_schedulable` rejects and that has a deadline different from the
period makes `bound_response_times` raise an exception instead of returning `False`. -/
theorem C89_assertion (fuel m : ℕ) (ts : List ITask) (step : ℕ) (hi : ∃ t ∈ ts, t.deadline ≠ t.period) :
    edfBounds (some false) fuel m ts step = some .error := by
  obtain ⟨t, ht, hne⟩ := hi
  obtain ⟨i, hi⟩ := List.get_of_mem ht
  change some (daBounds m ts) = _
  unfold daBounds Da.boundResponseTimes
  rw [if_neg]
  simp only [List.all_eq_true, List.mem_finRange, decide_eq_true_eq, forall_true_left]
  intro h
  have := h i
  rw [hi] at this
  exact hne this

example : edfBounds (isSchedulablePy 10 1 [⟨3, 4, 2⟩]) 10 1 [⟨3, 4, 2⟩] = some .error := by decide +kernel

example : Proper [⟨2, 7, 6⟩, ⟨4, 9, 7⟩, ⟨3, 9, 8⟩] ∧ Constrained [⟨2, 7, 6⟩, ⟨4, 9, 7⟩, ⟨3, 9, 8⟩] ∧
    Feasible [⟨2, 7, 6⟩, ⟨4, 9, 7⟩, ⟨3, 9, 8⟩] ∧
    edfBounds (isSchedulablePy 30 2 [⟨2, 7, 6⟩, ⟨4, 9, 7⟩, ⟨3, 9, 8⟩] 1 .never) 30 2 [⟨2, 7, 6⟩, ⟨4, 9, 7⟩, ⟨3, 9, 8⟩] =
      some (.bounds [5, 6, 5]) ∧
    edfBounds (isSchedulablePy 30 2 [⟨2, 3, 3⟩, ⟨2, 3, 3⟩, ⟨2, 3, 3⟩] 1 .never) 30 2 [⟨2, 3, 3⟩, ⟨2, 3, 3⟩, ⟨2, 3, 3⟩] =
      some (.bounds [5, 5, 5]) ∧
    edfBounds (isSchedulablePy 30 2 [⟨3, 3, 3⟩, ⟨2, 3, 3⟩, ⟨2, 3, 3⟩] 1 .never) 30 2 [⟨3, 3, 3⟩, ⟨2, 3, 3⟩, ⟨2, 3, 3⟩] =
      some .noBounds := by
  decide +kernel

end Verif.GEdf
