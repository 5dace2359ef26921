/-
Lemmas about the steps of the native G-EDF simulator.
-/
import Verif.Model.EdfSim
import Mathlib.Data.List.Perm.Basic
import Mathlib.Data.List.Nodup
import Mathlib.Tactic.Linarith

namespace Verif.EdfSim
open Verif Verif.Native

variable {n : ℕ}

/-- What is required of the pending queue: if it is not empty, its top is an
element with the earliest deadline. -/
def PickOk (pick : Pick n) : Prop :=
  ∀ k dl l, (l = [] → pick k dl l = none) ∧
    (l ≠ [] → ∃ i ∈ l, pick k dl l = some i ∧ ∀ j ∈ l, dl i ≤ dl j)

/-! ### Step 1: completions -/

/-- The running jobs that are complete after another `delta` units. -/
def finished (delta : ℕ) (ps : List (Option (Fin n))) (s : Sim n) : List (Fin n) :=
  (ps.filterMap id).filter (fun i => (s.job i).cost ≤ (s.job i).allocation + delta)

/-- The job objects after step 1. -/
def served (ts : Fin n → Task) (delta : ℕ) (ps : List (Option (Fin n))) (s : Sim n)
    (i : Fin n) : Job :=
  if some i ∈ ps then
    if (s.job i).cost ≤ (s.job i).allocation + delta then (s.job i).initNext (ts i)
    else { s.job i with allocation := (s.job i).allocation + delta }
  else s.job i

/-- The processors after step 1. -/
def vacated (delta : ℕ) (s : Sim n) (p : Option (Fin n)) : Option (Fin n) :=
  p.filter (fun i => !decide ((s.job i).cost ≤ (s.job i).allocation + delta))

theorem advanceProcs_eq (ts : Fin n → Task) (delta : ℕ) (ps : List (Option (Fin n))) :
    ∀ s : Sim n, (ps.filterMap id).Nodup →
    advanceProcs ts delta ps s =
      (ps.map (vacated delta s),
       { s with
          job := served ts delta ps s
          events := s.events ++ ((finished delta ps s).filter
            (fun i => s.now ≤ (s.job i).release + (ts i).period)).map
              (fun i => ((s.job i).release + (ts i).period, some i))
          pending := s.pending ++ (finished delta ps s).filter
            (fun i => !decide (s.now ≤ (s.job i).release + (ts i).period))
          calls := s.calls ++ (finished delta ps s).map
            (fun i => ⟨i, (s.job i).seqno, s.deadline ts i, s.now⟩) }) := by
  induction ps with
  | nil =>
    intro s _
    have : served ts delta [] s = s.job := by funext i; simp [served]
    simp [advanceProcs, finished, this]
  | cons p ps ih =>
    intro s hnd
    cases p with
    | none =>
      simp only [List.filterMap_cons_none, id_eq] at hnd
      simp only [advanceProcs]
      rw [ih s hnd]
      simp only [finished, List.filterMap_cons_none, id_eq, List.map_cons]
      refine Prod.ext ?_ ?_
      · simp [vacated]
      · simp only
        congr 1
        funext i
        simp [served]
    | some i =>
      simp only [List.filterMap_cons, id_eq, List.nodup_cons] at hnd
      obtain ⟨hi, hnd⟩ := hnd
      have hip : some i ∉ ps := by
        intro hc; apply hi; rw [List.mem_filterMap]; exact ⟨some i, hc, rfl⟩
      -- jobs other than `i` are not touched by the first step
      have hother : ∀ (s' : Sim n), (∀ j, j ≠ i → s'.job j = s.job j) →
          finished delta ps s' = finished delta ps s ∧
          ps.map (vacated delta s') = ps.map (vacated delta s) ∧
          (∀ j ∈ finished delta ps s, j ≠ i) := by
        intro s' hs'
        refine ⟨?_, ?_, ?_⟩
        · unfold finished
          apply List.filter_congr
          intro j hj
          have : j ≠ i := fun h => hi (h ▸ hj)
          rw [hs' j this]
        · apply List.map_congr_left
          intro q hq
          cases q with
          | none => rfl
          | some j =>
            have : j ≠ i := fun h => hip (h ▸ hq)
            simp only [vacated, hs' j this, Option.filter]
        · intro j hj
          have := (List.mem_filter.1 hj).1
          exact fun h => hi (h ▸ this)
      simp only [advanceProcs]
      have hsc : ((s.serve i delta).job i).cost = (s.job i).cost ∧ ((s.serve i delta).job i).allocation = (s.job i).allocation + delta := by
        simp [Sim.serve]
      by_cases hc : (s.job i).cost ≤ (s.job i).allocation + delta
      · rw [if_pos (by simpa [Job.isComplete, hsc.1, hsc.2] using hc)]

        -- the state after the completion of `i`
        set s1 : Sim n := ((s.serve i delta).jobCompleted ts i).completed ts i with hs1
        have hjob : s1.job = Function.update s.job i ((s.job i).initNext (ts i)) := by
          rw [hs1]
          unfold Sim.completed Sim.addRelease
          split_ifs <;> simp [Sim.addReady, Job.initNext, Sim.serve, Sim.jobCompleted]
        have hnow : s1.now = s.now := by
          rw [hs1]; unfold Sim.completed Sim.addRelease; split_ifs <;> rfl
        have hprocs : s1.procs = s.procs := by
          rw [hs1]; unfold Sim.completed Sim.addRelease; split_ifs <;> rfl
        have htaken : s1.taken = s.taken := by
          rw [hs1]; unfold Sim.completed Sim.addRelease; split_ifs <;> rfl
        have hcalls : s1.calls = s.calls ++ [⟨i, (s.job i).seqno, s.deadline ts i, s.now⟩] := by
          rw [hs1]; unfold Sim.completed Sim.addRelease
          split_ifs <;> simp [Sim.addReady, Sim.deadline, Sim.serve, Sim.jobCompleted]
        have hevents : s1.events = s.events ++
            (if s.now ≤ (s.job i).release + (ts i).period then
              [((s.job i).release + (ts i).period, some i)] else []) := by
          rw [hs1]; unfold Sim.completed Sim.addRelease
          by_cases h : s.now ≤ (s.job i).release + (ts i).period <;>
            simp [h, Sim.addReady, Job.initNext, Sim.serve, Sim.jobCompleted]
        have hpending : s1.pending = s.pending ++
            (if s.now ≤ (s.job i).release + (ts i).period then [] else [i]) := by
          rw [hs1]; unfold Sim.completed Sim.addRelease
          by_cases h : s.now ≤ (s.job i).release + (ts i).period <;>
            simp [h, Sim.addReady, Job.initNext, Sim.serve, Sim.jobCompleted]
        rw [ih s1 hnd]
        obtain ⟨o1, o2, o3⟩ := hother s1 (fun j hj => by rw [hjob, Function.update_of_ne hj])
        have hfin : finished delta (some i :: ps) s = i :: finished delta ps s := by
          unfold finished
          simp only [List.filterMap_cons, id_eq]
          rw [List.filter_cons_of_pos (by simpa using hc)]
        have hjobs1 : ∀ j ∈ finished delta ps s, s1.job j = s.job j := by
          intro j hj; rw [hjob, Function.update_of_ne (o3 j hj)]
        refine Prod.ext ?_ ?_
        · simp only [List.map_cons, o2]
          congr 1
          simp [vacated, Option.filter, hc]
        · simp only
          have e1 : served ts delta ps s1 = served ts delta (some i :: ps) s := by
            funext j
            by_cases hj : j = i
            · subst hj
              simp only [served, hip, if_false, List.mem_cons, true_or, if_true, hc]
              rw [hjob, Function.update_self]
            · simp only [served, List.mem_cons, Option.some.injEq, hj, false_or]
              rw [hjob, Function.update_of_ne hj]
          have e2 : (finished delta ps s1).filter
              (fun j => s1.now ≤ (s1.job j).release + (ts j).period)
              = (finished delta ps s).filter (fun j => s.now ≤ (s.job j).release + (ts j).period) := by
            rw [o1]
            apply List.filter_congr
            intro j hj
            rw [hjobs1 j hj, hnow]
          have e3 : (finished delta ps s1).filter
              (fun j => !decide (s1.now ≤ (s1.job j).release + (ts j).period))
              = (finished delta ps s).filter
                (fun j => !decide (s.now ≤ (s.job j).release + (ts j).period)) := by
            rw [o1]
            apply List.filter_congr
            intro j hj
            rw [hjobs1 j hj, hnow]
          have e4 : ((finished delta ps s1).filter
              (fun j => s1.now ≤ (s1.job j).release + (ts j).period)).map
                (fun j => ((s1.job j).release + (ts j).period, some j))
              = ((finished delta ps s).filter
                (fun j => s.now ≤ (s.job j).release + (ts j).period)).map
                (fun j => ((s.job j).release + (ts j).period, some j)) := by
            rw [e2]
            apply List.map_congr_left
            intro j hj
            rw [hjobs1 j (List.mem_filter.1 hj).1]
          have e5 : (finished delta ps s1).map
              (fun j => (⟨j, (s1.job j).seqno, s1.deadline ts j, s1.now⟩ : Call n))
              = (finished delta ps s).map
                (fun j => (⟨j, (s.job j).seqno, s.deadline ts j, s.now⟩ : Call n)) := by
            rw [o1]
            apply List.map_congr_left
            intro j hj
            simp only [Sim.deadline]
            rw [hjobs1 j hj, hnow]
          rw [e1, e3, e4, e5, hcalls, hevents, hpending, hnow, hprocs, htaken, hfin]
          by_cases h : s.now ≤ (s.job i).release + (ts i).period
          · simp [h, List.filter_cons]
          · simp [h, List.filter_cons]
      · rw [if_neg (by simpa [Job.isComplete, hsc.1, hsc.2] using hc)]
        set s1 : Sim n := s.serve i delta with hs1
        rw [ih s1 hnd]
        obtain ⟨o1, o2, o3⟩ := hother s1 (fun j hj => by rw [hs1]; simp [Sim.serve, Function.update_of_ne hj])
        have hjobs1 : ∀ j ∈ finished delta ps s, s1.job j = s.job j := by
          intro j hj; rw [hs1]; simp [Sim.serve, Function.update_of_ne (o3 j hj)]
        have hfin : finished delta (some i :: ps) s = finished delta ps s := by
          unfold finished
          simp only [List.filterMap_cons, id_eq]
          rw [List.filter_cons_of_neg (by simpa using hc)]
        refine Prod.ext ?_ ?_
        · simp only [List.map_cons, o2]
          congr 1
          simp [vacated, Option.filter, hc]
        · simp only
          have e1 : served ts delta ps s1 = served ts delta (some i :: ps) s := by
            funext j
            by_cases hj : j = i
            · subst hj
              simp [served, hip, hc, hs1, Sim.serve]
            · simp [served, hj, hs1, Sim.serve, Function.update_of_ne hj]
          have e2 : (finished delta ps s1).filter
              (fun j => s.now ≤ (s1.job j).release + (ts j).period)
              = (finished delta ps s).filter (fun j => s.now ≤ (s.job j).release + (ts j).period) := by
            rw [o1]
            apply List.filter_congr
            intro j hj
            rw [hjobs1 j hj]
          have e3 : (finished delta ps s1).filter
              (fun j => !decide (s.now ≤ (s1.job j).release + (ts j).period))
              = (finished delta ps s).filter
                (fun j => !decide (s.now ≤ (s.job j).release + (ts j).period)) := by
            rw [o1]
            apply List.filter_congr
            intro j hj
            rw [hjobs1 j hj]
          have e4 : ((finished delta ps s1).filter
              (fun j => s.now ≤ (s1.job j).release + (ts j).period)).map
                (fun j => ((s1.job j).release + (ts j).period, some j))
              = ((finished delta ps s).filter
                (fun j => s.now ≤ (s.job j).release + (ts j).period)).map
                (fun j => ((s.job j).release + (ts j).period, some j)) := by
            rw [e2]
            apply List.map_congr_left
            intro j hj
            rw [hjobs1 j (List.mem_filter.1 hj).1]
          have e5 : (finished delta ps s1).map
              (fun j => (⟨j, (s1.job j).seqno, s1.deadline ts j, s.now⟩ : Call n))
              = (finished delta ps s).map
                (fun j => (⟨j, (s.job j).seqno, s.deadline ts j, s.now⟩ : Call n)) := by
            rw [o1]
            apply List.map_congr_left
            intro j hj
            simp only [Sim.deadline]
            rw [hjobs1 j hj]
          have hn1 : s1.now = s.now := rfl
          rw [e1, hfin, hn1, e3, e4, e5]; rfl

/-! ### Step 3: preemptions -/

/-- Deadline of what a processor runs; an idle processor comes last. -/
def rank (dl : Fin n → ℕ) : Option (Fin n) → WithTop ℕ
  | some i => (dl i : WithTop ℕ)
  | none => ⊤

theorem lowerPrio_iff (dl : Fin n → ℕ) (a b : Option (Fin n)) :
    lowerPrio dl a b = true ↔ rank dl b < rank dl a := by
  cases a <;> cases b <;> simp [lowerPrio, rank]

theorem lowestProc_best (dl : Fin n → ℕ) (ps : List (Option (Fin n))) :
    ∀ (i : ℕ) (b : ℕ × Option (Fin n)), ∃ k p, lowestProc dl i (some b) ps = some (k, p) ∧
      ((k, p) = b ∨ (i ≤ k ∧ ps[k - i]? = some p)) ∧ rank dl b.2 ≤ rank dl p ∧
      ∀ q ∈ ps, rank dl q ≤ rank dl p := by
  induction ps with
  | nil => intro i b; exact ⟨b.1, b.2, rfl, Or.inl rfl, le_rfl, by simp⟩
  | cons x xs ih =>
    intro i b
    rw [lowestProc]
    by_cases h : lowerPrio dl x b.2 = true
    · rw [if_pos h]
      obtain ⟨k, p, h1, h2, h3, h4⟩ := ih (i + 1) (i, x)
      have hx := (lowerPrio_iff dl x b.2).1 h
      refine ⟨k, p, h1, Or.inr ?_, hx.le.trans h3, ?_⟩
      · rcases h2 with h2 | ⟨h2, h2'⟩
        · rw [Prod.mk.injEq] at h2
          rw [h2.1, h2.2]; simp
        · refine ⟨by omega, ?_⟩
          rw [show k - i = (k - (i + 1)) + 1 by omega]
          simpa using h2'
      · intro q hq
        rcases List.mem_cons.1 hq with rfl | hq
        · exact h3
        · exact h4 q hq
    · rw [if_neg h]
      obtain ⟨k, p, h1, h2, h3, h4⟩ := ih (i + 1) b
      rw [lowerPrio_iff, not_lt] at h
      refine ⟨k, p, h1, ?_, h3, ?_⟩
      · rcases h2 with h2 | ⟨h2, h2'⟩
        · exact Or.inl h2
        · refine Or.inr ⟨by omega, ?_⟩
          rw [show k - i = (k - (i + 1)) + 1 by omega]
          simpa using h2'
      · intro q hq
        rcases List.mem_cons.1 hq with rfl | hq
        · exact h.trans h3
        · exact h4 q hq

theorem lowestProc_spec (dl : Fin n → ℕ) (ps : List (Option (Fin n))) (hne : ps ≠ []) :
    ∃ k p, lowestProc dl 0 none ps = some (k, p) ∧ ps[k]? = some p ∧
      ∀ q ∈ ps, rank dl q ≤ rank dl p := by
  cases ps with
  | nil => exact absurd rfl hne
  | cons x xs =>
    rw [lowestProc]
    obtain ⟨k, p, h1, h2, h3, h4⟩ := lowestProc_best dl xs (0 + 1) (0, x)
    refine ⟨k, p, h1, ?_, ?_⟩
    · rcases h2 with h2 | ⟨h2, h2'⟩
      · rw [Prod.mk.injEq] at h2
        rw [h2.1, h2.2]; rfl
      · rw [show k = (k - (0 + 1)) + 1 by omega]
        simpa using h2'
    · intro q hq
      rcases List.mem_cons.1 hq with rfl | hq
      · exact h3
      · exact h4 q hq

theorem filterMap_set_perm (top : Fin n) : ∀ (ps : List (Option (Fin n))) (k : ℕ)
    (p : Option (Fin n)), ps[k]? = some p →
    (p.toList ++ (ps.set k (some top)).filterMap id).Perm (top :: ps.filterMap id)
  | [], k, p, h => by simp at h
  | x :: xs, 0, p, h => by
    simp only [List.getElem?_cons_zero, Option.some.injEq] at h
    subst h
    cases x with
    | none => simp
    | some j => simpa using List.Perm.swap top j _
  | x :: xs, k + 1, p, h => by
    have ih := filterMap_set_perm top xs k p (by simpa using h)
    simp only [List.set_cons_succ]
    cases x with
    | none => simpa using ih
    | some j =>
      simp only [List.filterMap_cons, id_eq]
      refine (List.perm_middle).trans ?_
      exact (ih.cons j).trans (List.Perm.swap _ _ _)

/-- Processors that could still be taken over. -/
def open_ (preemptive : Bool) (dl : Fin n → ℕ) (pending : List (Fin n)) (p : Option (Fin n)) :
    Bool :=
  (p.isNone || preemptive) && pending.any (fun j => lowerPrio dl p (some j))

theorem countP_set_lt {α : Type} (f g : α → Bool) (x : α) (hx : g x = false) :
    ∀ (l : List α) (k : ℕ) (y : α), l[k]? = some y → f y = true →
    (∀ z ∈ l, g z = true → f z = true) → (l.set k x).countP g + 1 ≤ l.countP f
  | [], k, y, h, _, _ => by simp at h
  | a :: as, 0, y, h, hy, hz => by
    simp only [List.getElem?_cons_zero, Option.some.injEq] at h
    subst h
    simp only [List.set_cons_zero, List.countP_cons, hx, hy]
    have : as.countP g ≤ as.countP f := by
      apply List.countP_mono_left
      intro z hz' hg
      exact hz z (by simp [hz']) hg
    simp; omega
  | a :: as, k + 1, y, h, hy, hz => by
    have ih := countP_set_lt f g x hx as k y (by simpa using h) hy
      (fun z hz' => hz z (by simp [hz']))
    simp only [List.set_cons_succ, List.countP_cons]
    have := hz a (by simp)
    by_cases hg : g a = true
    · simp [hg, this hg]; omega
    · simp [hg]; split_ifs <;> omega

/-- What a round of step 3 does. -/
theorem dispatch_spec {s : Sim n} {top : Fin n} {k : ℕ} {p : Option (Fin n)}
    (htop : top ∈ s.pending) (hk : s.procs[k]? = some p)
    (hinc : ∀ i, some i ∈ s.procs → (s.job i).isComplete = false) :
    ((s.dispatch top k p).pending ++ (s.dispatch top k p).procs.filterMap id).Perm
      (s.pending ++ s.procs.filterMap id) ∧
    (∀ j ∈ (s.dispatch top k p).pending, j ∈ s.pending.erase top ∨ p = some j) := by
  have hpush : (s.dispatch top k p).pending = s.pending.erase top ++ p.toList := by
    cases p with
    | none => simp [Sim.dispatch]
    | some j =>
      have := hinc j (List.mem_of_getElem? hk)
      simp [Sim.dispatch, this]
  rw [hpush]
  refine ⟨?_, fun j hj => ?_⟩
  · have h1 := filterMap_set_perm top s.procs k p hk
    simp only [Sim.dispatch]
    rw [List.append_assoc]
    refine (h1.append_left _).trans ?_
    refine List.perm_middle.trans ?_
    rw [← List.cons_append]
    exact (List.perm_cons_erase htop).symm.append_right _
  · rcases List.mem_append.1 hj with h | h
    · exact Or.inl h
    · right; cases p with
      | none => simp at h
      | some x => simp at h; rw [h]

/-- Everything step 3 keeps, and what it adds. -/
structure Dispatched (s s' : Sim n) : Prop where
  now : s'.now = s.now
  job : s'.job = s.job
  calls : s'.calls = s.calls
  length : s'.procs.length = s.procs.length
  perm : (s'.pending ++ s'.procs.filterMap id).Perm (s.pending ++ s.procs.filterMap id)
  events : ∃ times : List ℕ, s'.events = s.events ++ times.map (fun t => (t, none)) ∧
    ∀ t ∈ times, ∃ i ∈ s.pending ++ s.procs.filterMap id,
      t = (s.job i).remainingDemand + s.now
  running : ∀ i, some i ∈ s'.procs → some i ∈ s.procs ∨
    ((s.job i).remainingDemand + s.now, none) ∈ s'.events

theorem Dispatched.refl (s : Sim n) : Dispatched s s :=
  ⟨rfl, rfl, rfl, rfl, List.Perm.refl _, ⟨[], by simp, by simp⟩, fun _ h => Or.inl h⟩

theorem preempt_ends (ts : Fin n → Task) {pick : Pick n} (hpick : PickOk pick) (pre : Bool) :
    ∀ (fuel : ℕ) (s : Sim n), (∀ i, some i ∈ s.procs → (s.job i).isComplete = false) →
      (∀ i ∈ s.pending, (s.job i).isComplete = false) →
      s.procs.countP (open_ pre (s.deadline ts) s.pending) ≤ fuel →
      Dispatched s (preempt ts pick pre fuel s) ∧
      ∀ p ∈ (preempt ts pick pre fuel s).procs,
        open_ pre (s.deadline ts) (preempt ts pick pre fuel s).pending p = false := by
  intro fuel
  induction fuel with
  | zero =>
    intro s _ _ h
    refine ⟨Dispatched.refl s, fun p hp => ?_⟩
    have h0 : s.procs.countP (open_ pre (s.deadline ts) s.pending) = 0 := by omega
    rw [List.countP_eq_zero] at h0
    simpa [preempt] using h0 p hp
  | succ fuel ih =>
    intro s hinc hpinc h
    rw [preempt]
    by_cases hpe : s.pending = []
    · rw [((hpick s.taken (s.deadline ts) s.pending).1 hpe)]
      exact ⟨Dispatched.refl s, fun p _ => by simp [open_, hpe]⟩
    by_cases hps : s.procs = []
    · obtain ⟨top, _, ht, _⟩ := (hpick s.taken (s.deadline ts) s.pending).2 hpe
      rw [ht, hps]
      exact ⟨Dispatched.refl s, fun p hp => by
        simp only [lowestProc] at hp; rw [hps] at hp; simp at hp⟩
    obtain ⟨top, htm, ht, hmin⟩ := (hpick s.taken (s.deadline ts) s.pending).2 hpe
    obtain ⟨k, p, hlow, hk, hmax⟩ := lowestProc_spec (s.deadline ts) s.procs hps
    rw [ht, hlow]
    simp only
    by_cases hc : ((p.isNone || pre) && lowerPrio (s.deadline ts) p (some top)) = true
    · rw [if_pos hc]
      rw [Bool.and_eq_true, lowerPrio_iff] at hc
      obtain ⟨d1, d2⟩ := dispatch_spec htm hk hinc
      set s1 := s.dispatch top k p with hs1
      have hjob : s1.job = s.job := rfl
      have hmem : ∀ j, j ∈ s1.pending ++ s1.procs.filterMap id ↔
          j ∈ s.pending ++ s.procs.filterMap id := fun j => d1.mem_iff
      have hinc1 : ∀ i, (i ∈ s1.pending ∨ some i ∈ s1.procs) →
          (s1.job i).isComplete = false := by
        intro i hi
        rw [hjob]
        have : i ∈ s.pending ++ s.procs.filterMap id := by
          rw [← hmem, List.mem_append]
          rcases hi with hi | hi
          · exact Or.inl hi
          · exact Or.inr (List.mem_filterMap.2 ⟨_, hi, rfl⟩)
        rcases List.mem_append.1 this with hi | hi
        · exact hpinc i hi
        · obtain ⟨q, hq, hqi⟩ := List.mem_filterMap.1 hi
          rw [id_eq] at hqi; rw [hqi] at hq
          exact hinc i hq
      have hdl : s1.deadline ts = s.deadline ts := rfl
      -- the number of open processors has gone down
      have hdec : s1.procs.countP (open_ pre (s1.deadline ts) s1.pending) ≤ fuel := by
        have := countP_set_lt (open_ pre (s.deadline ts) s.pending)
          (open_ pre (s.deadline ts) s1.pending) (some top) (by
            unfold open_
            rw [Bool.and_eq_false_iff]
            right
            rw [List.any_eq_false]
            intro j hj
            rw [lowerPrio_iff, not_lt]
            rcases d2 j hj with hj | hj
            · simp only [rank]
              exact_mod_cast hmin j (List.mem_of_mem_erase hj)
            · rw [hj] at hc; exact hc.2.le)
          s.procs k p hk (by
            unfold open_
            rw [Bool.and_eq_true]
            exact ⟨hc.1, List.any_eq_true.2 ⟨top, htm, (lowerPrio_iff _ _ _).2 hc.2⟩⟩)
          (by
            intro z hz hg
            unfold open_ at hg ⊢
            rw [Bool.and_eq_true] at hg ⊢
            refine ⟨hg.1, ?_⟩
            obtain ⟨j, hj, hjz⟩ := List.any_eq_true.1 hg.2
            rcases d2 j hj with hj | hj
            · exact List.any_eq_true.2 ⟨j, List.mem_of_mem_erase hj, hjz⟩
            · rw [lowerPrio_iff, ← hj] at hjz
              exact absurd hjz (not_lt.2 (hmax z hz)))
        have e : s1.procs = s.procs.set k (some top) := rfl
        rw [e, hdl]
        omega
      obtain ⟨r, rex⟩ := ih s1 (fun i hi => hinc1 i (Or.inr hi)) (fun i hi => hinc1 i (Or.inl hi)) hdec
      refine ⟨⟨r.now, r.job, r.calls, ?_, r.perm.trans d1, ?_, ?_⟩, rex⟩
      · rw [r.length]; simp [hs1, Sim.dispatch]
      · obtain ⟨times, h1, h2⟩ := r.events
        refine ⟨((s.job top).remainingDemand + s.now) :: times, ?_, ?_⟩
        · rw [h1]; simp [hs1, Sim.dispatch]
        · intro t ht
          rcases List.mem_cons.1 ht with rfl | ht
          · exact ⟨top, by simp [htm], rfl⟩
          · obtain ⟨i, hi, hti⟩ := h2 t ht
            exact ⟨i, (hmem i).1 hi, hti⟩
      · intro i hi
        rcases r.running i hi with h | h
        · rcases List.mem_or_eq_of_mem_set h with h | h
          · exact Or.inl h
          · right
            rw [Option.some.injEq] at h
            obtain ⟨times, h1, _⟩ := r.events
            rw [h1, h]
            simp [hs1, Sim.dispatch]
        · right; exact h
    · rw [if_neg hc]
      refine ⟨Dispatched.refl s, fun q hq => ?_⟩
      by_contra hopen
      rw [Bool.not_eq_false] at hopen
      unfold open_ at hopen
      rw [Bool.and_eq_true] at hopen
      obtain ⟨j, hj, hjq⟩ := List.any_eq_true.1 hopen.2
      apply hc
      rw [Bool.and_eq_true, lowerPrio_iff]
      rw [lowerPrio_iff] at hjq
      have hle : rank (s.deadline ts) (some top) ≤ rank (s.deadline ts) (some j) := by
        simp only [rank]; exact_mod_cast hmin j hj
      refine ⟨?_, lt_of_le_of_lt hle (hjq.trans_le (hmax q hq))⟩
      rcases Bool.or_eq_true_iff.1 hopen.1 with hn | hp
      · cases q with
        | some _ => simp at hn
        | none =>
          have := hmax none hq
          cases p with
          | none => rfl
          | some x => simp [rank] at this
      · simp [hp]

/-! ### `advance_time` -/

/-- The invariant between two calls of `advance_time`. -/
structure Core (ts : Fin n → Task) (m : ℕ) (s : Sim n) : Prop where
  length : s.procs.length = m
  perm : (s.events.filterMap Prod.snd ++ (s.pending ++ s.procs.filterMap id)).Perm (List.finRange n)
  seqno : ∀ i, 1 ≤ (s.job i).seqno
  release : ∀ i, (s.job i).release = ((s.job i).seqno - 1) * (ts i).period
  cost : ∀ i, (s.job i).cost = (ts i).wcet
  waiting : ∀ e ∈ s.events, ∀ i, e.2 = some i →
    e.1 = (s.job i).release ∧ (s.job i).allocation = 0
  active : ∀ i ∈ s.pending ++ s.procs.filterMap id,
    (s.job i).release ≤ s.now ∧ (s.job i).allocation < (s.job i).cost
  wakeup : ∀ i, some i ∈ s.procs → ∃ e ∈ s.events, e.1 = (s.job i).remainingDemand + s.now

theorem mem_filterMap_id {ps : List (Option (Fin n))} {i : Fin n} :
    i ∈ ps.filterMap id ↔ some i ∈ ps := by
  simp [List.mem_filterMap]

theorem filterMap_vacated (delta : ℕ) (s : Sim n) (ps : List (Option (Fin n))) :
    (ps.map (vacated delta s)).filterMap id = (ps.filterMap id).filter
      (fun i => !decide ((s.job i).cost ≤ (s.job i).allocation + delta)) := by
  induction ps with
  | nil => rfl
  | cons p ps ih =>
    cases p with
    | none =>
      have e : vacated delta s none = none := rfl
      simp only [List.map_cons, e, List.filterMap_cons, id_eq]
      exact ih
    | some i =>
      by_cases h : (s.job i).cost ≤ (s.job i).allocation + delta
      · simpa [vacated, Option.filter, h] using ih
      · simp only [List.map_cons, vacated, Option.filter, h, decide_false, Bool.not_false, if_true,
          List.filterMap_cons, id_eq]
        rw [List.filter_cons_of_pos (by simpa using h)]
        congr 1

theorem count_filter_add {α : Type} [DecidableEq α] (l : List α) (p : α → Bool) (a : α) :
    (l.filter p).count a + (l.filter (fun x => !p x)).count a = l.count a := by
  have := (List.filter_append_perm p l).count_eq a
  rw [List.count_append] at this
  exact this

theorem count_filterMap_add {α β : Type} [DecidableEq β] (l : List α) (f : α → Option β)
    (p : α → Bool) (b : β) :
    ((l.filter p).filterMap f).count b + ((l.filter (fun x => !p x)).filterMap f).count b
      = (l.filterMap f).count b := by
  have := ((List.filter_append_perm p l).filterMap f).count_eq b
  rw [List.filterMap_append, List.count_append] at this
  exact this

theorem Core.nodup {ts : Fin n → Task} {m : ℕ} {s : Sim n} (h : Core ts m s) :
    (s.events.filterMap Prod.snd ++ (s.pending ++ s.procs.filterMap id)).Nodup :=
  h.perm.nodup_iff.2 (List.nodup_finRange n)

/-- What one call of `advance_time(u)` does, if no event lies before `u`. -/
theorem advance_spec {ts : Fin n → Task} {m : ℕ} {s : Sim n} {u : ℕ} {pick : Pick n}
    (hpick : PickOk pick) (pre : Bool) (hC : ∀ i, 0 < (ts i).wcet) (h : Core ts m s)
    (hu : s.now ≤ u) (hev : ∀ e ∈ s.events, u ≤ e.1) :
    let s' := advance ts pick pre u s
    Core ts m s' ∧ s'.now = u ∧ (∀ e ∈ s'.events, u < e.1) ∧
    (∀ p ∈ s'.procs, open_ pre (s'.deadline ts) s'.pending p = false) ∧
    (s'.job = served ts (u - s.now) s.procs s) ∧
    s'.calls = s.calls ++ (finished (u - s.now) s.procs s).map
      (fun i => ⟨i, (s.job i).seqno, s.deadline ts i, u⟩) := by
  intro s'
  have hnd := h.nodup
  rw [List.nodup_append, List.nodup_append] at hnd
  obtain ⟨nd1, ⟨nd2, nd3, nd4⟩, nd5⟩ := hnd
  set d := u - s.now with hd
  -- running jobs have not overrun
  have hover : ∀ i, some i ∈ s.procs → (s.job i).allocation + d ≤ (s.job i).cost := by
    intro i hi
    obtain ⟨e, he, heq⟩ := h.wakeup i hi
    have h1 := hev e he
    have h2 := (h.active i (List.mem_append.2 (Or.inr (mem_filterMap_id.2 hi)))).2
    rw [heq] at h1
    unfold Job.remainingDemand at h1
    omega
  -- step 1
  set s0 : Sim n := { s with now := u } with hs0
  have hstep1 := advanceProcs_eq ts d s.procs s0 nd3
  have hfin0 : finished d s.procs s0 = finished d s.procs s := rfl
  have hserved0 : served ts d s.procs s0 = served ts d s.procs s := rfl
  set s1 : Sim n := { (advanceProcs ts d s.procs s0).2 with procs := (advanceProcs ts d s.procs s0).1 }
    with hs1
  have j1 : s1.job = served ts d s.procs s := by rw [hs1, hstep1]; rfl
  have n1 : s1.now = u := by rw [hs1, hstep1]
  have p1 : s1.procs = s.procs.map (vacated d s) := by
    rw [hs1, hstep1]; rfl
  have e1 : s1.events = s.events ++ ((finished d s.procs s).filter
      (fun i => u ≤ (s.job i).release + (ts i).period)).map
        (fun i => ((s.job i).release + (ts i).period, some i)) := by rw [hs1, hstep1]; rfl
  have q1 : s1.pending = s.pending ++ (finished d s.procs s).filter
      (fun i => !decide (u ≤ (s.job i).release + (ts i).period)) := by rw [hs1, hstep1]; rfl
  have c1 : s1.calls = s.calls ++ (finished d s.procs s).map
      (fun i => ⟨i, (s.job i).seqno, s.deadline ts i, u⟩) := by rw [hs1, hstep1]; rfl
  have fin_mem : ∀ i, i ∈ finished d s.procs s ↔
      some i ∈ s.procs ∧ (s.job i).cost ≤ (s.job i).allocation + d := by
    intro i
    unfold finished
    rw [List.mem_filter, mem_filterMap_id]; simp
  have run1 : ∀ i, some i ∈ s1.procs ↔
      some i ∈ s.procs ∧ ¬ (s.job i).cost ≤ (s.job i).allocation + d := by
    intro i
    rw [← mem_filterMap_id, p1, filterMap_vacated, List.mem_filter, mem_filterMap_id]; simp
  -- the job objects after step 1
  have jfin : ∀ i ∈ finished d s.procs s, s1.job i = (s.job i).initNext (ts i) := by
    intro i hi
    rw [fin_mem] at hi
    rw [j1]; simp [served, hi.1, hi.2]
  have jrun : ∀ i, some i ∈ s1.procs →
      s1.job i = { s.job i with allocation := (s.job i).allocation + d } := by
    intro i hi
    rw [run1] at hi
    rw [j1]; simp [served, hi.1, hi.2]
  have jkeep : ∀ i, some i ∉ s.procs → s1.job i = s.job i := by
    intro i hi
    rw [j1]; simp [served, hi]
  have cost1 : ∀ i, (s1.job i).cost = (ts i).wcet := by
    intro i
    rw [j1, ← h.cost i]; unfold served Job.initNext; split_ifs <;> rfl
  have perm1 : (s1.events.filterMap Prod.snd ++ (s1.pending ++ s1.procs.filterMap id)).Perm
      (List.finRange n) := by
    refine List.Perm.trans ?_ h.perm
    rw [List.perm_iff_count]
    intro a
    rw [e1, q1, p1, filterMap_vacated]
    simp only [List.filterMap_append, List.count_append]
    have f1 : ∀ l : List (Fin n), (l.map (fun i => ((s.job i).release + (ts i).period, some i))).filterMap
        Prod.snd = l := by
      intro l; induction l with
      | nil => rfl
      | cons x xs ih => simpa using ih
    rw [f1]
    have f2 := count_filter_add (finished d s.procs s)
      (fun i => decide (u ≤ (s.job i).release + (ts i).period)) a
    have f3 := count_filter_add (s.procs.filterMap id)
      (fun i => decide ((s.job i).cost ≤ (s.job i).allocation + d)) a
    have f4 : finished d s.procs s = (s.procs.filterMap id).filter
      (fun i => decide ((s.job i).cost ≤ (s.job i).allocation + d)) := rfl
    rw [← f4] at f3
    omega
  have waiting1 : ∀ e ∈ s1.events, ∀ i, e.2 = some i →
      e.1 = (s1.job i).release ∧ (s1.job i).allocation = 0 := by
    intro e he i hi
    rw [e1, List.mem_append] at he
    rcases he with he | he
    · have hne : some i ∉ s.procs := by
        intro hc
        exact nd5 i (List.mem_filterMap.2 ⟨e, he, hi⟩) i
          (List.mem_append.2 (Or.inr (mem_filterMap_id.2 hc))) rfl
      rw [jkeep i hne]
      exact h.waiting e he i hi
    · obtain ⟨j, hj, rfl⟩ := List.mem_map.1 he
      simp only [Option.some.injEq] at hi
      subst hi
      rw [jfin _ (List.mem_filter.1 hj).1]
      exact ⟨rfl, rfl⟩
  -- step 2
  set s2 : Sim n := s1.fire with hs2
  have j2 : s2.job = s1.job := rfl
  have n2 : s2.now = u := n1
  have p2 : s2.procs = s1.procs := rfl
  have e2 : ∀ e, e ∈ s2.events ↔ e ∈ s1.events ∧ u < e.1 := by
    intro e
    rw [hs2]; simp only [Sim.fire]
    rw [List.mem_filter, n1]; simp
  have q2 : ∀ i, i ∈ s2.pending ↔ i ∈ s1.pending ∨ ∃ e ∈ s1.events, e.1 ≤ u ∧ e.2 = some i := by
    intro i
    rw [hs2]; simp only [Sim.fire]
    rw [List.mem_append, List.mem_filterMap]
    constructor
    · rintro (h | ⟨e, he, hei⟩)
      · exact Or.inl h
      · rw [List.mem_filter, n1] at he
        exact Or.inr ⟨e, he.1, by simpa using he.2, hei⟩
    · rintro (h | ⟨e, he, hle, hei⟩)
      · exact Or.inl h
      · exact Or.inr ⟨e, List.mem_filter.2 ⟨he, by rw [n1]; simpa using hle⟩, hei⟩
  have perm2 : (s2.events.filterMap Prod.snd ++ (s2.pending ++ s2.procs.filterMap id)).Perm
      (List.finRange n) := by
    refine List.Perm.trans ?_ perm1
    rw [List.perm_iff_count]
    intro a
    rw [hs2]
    simp only [Sim.fire, List.count_append]
    have := count_filterMap_add s1.events Prod.snd (fun e => decide (e.1 ≤ s1.now)) a
    omega
  have active2 : ∀ i ∈ s2.pending ++ s2.procs.filterMap id,
      (s2.job i).release ≤ u ∧ (s2.job i).allocation < (s2.job i).cost := by
    intro i hi
    rw [j2]
    rcases List.mem_append.1 hi with hi | hi
    · rcases (q2 i).1 hi with hi | ⟨e, he, hle, hei⟩
      · rw [q1, List.mem_append] at hi
        rcases hi with hi | hi
        · have hne : some i ∉ s.procs := fun hc => nd4 i hi i (mem_filterMap_id.2 hc) rfl
          rw [jkeep i hne]
          have := h.active i (List.mem_append.2 (Or.inl hi))
          exact ⟨this.1.trans hu, this.2⟩
        · rw [List.mem_filter] at hi
          have hlt : (s.job i).release + (ts i).period < u := by simpa using hi.2
          rw [jfin i hi.1]
          refine ⟨hlt.le, ?_⟩
          have := hC i
          rw [← h.cost i] at this
          exact this
      · have := waiting1 e he i hei
        rw [← this.1, this.2, cost1]
        exact ⟨hle, hC i⟩
    · have hr := mem_filterMap_id.1 hi
      rw [p2] at hr
      rw [jrun i hr]
      have hr' := (run1 i).1 hr
      have := h.active i (List.mem_append.2 (Or.inr (mem_filterMap_id.2 hr'.1)))
      exact ⟨this.1.trans hu, by simpa using hr'.2⟩
  have wakeup2 : ∀ i, some i ∈ s2.procs → ∃ e ∈ s2.events, e.1 = (s2.job i).remainingDemand + u := by
    intro i hi
    rw [p2] at hi
    have hr' := (run1 i).1 hi
    obtain ⟨e, he, heq⟩ := h.wakeup i hr'.1
    have hrem : e.1 = (s2.job i).remainingDemand + u := by
      rw [heq, j2, jrun i hi]
      unfold Job.remainingDemand
      simp only
      omega
    refine ⟨e, (e2 e).2 ⟨by rw [e1]; simp [he], ?_⟩, hrem⟩
    rw [hrem, j2, jrun i hi]
    unfold Job.remainingDemand
    simp only
    omega
  -- step 3
  have hcompl : ∀ i ∈ s2.pending ++ s2.procs.filterMap id, (s2.job i).isComplete = false := by
    intro i hi
    have := (active2 i hi).2
    unfold Job.isComplete
    simpa using this
  obtain ⟨r, rex⟩ := preempt_ends ts hpick pre s2.procs.length s2
    (fun i hi => hcompl i (List.mem_append.2 (Or.inr (mem_filterMap_id.2 hi))))
    (fun i hi => hcompl i (List.mem_append.2 (Or.inl hi))) List.countP_le_length
  have hs' : s' = preempt ts pick pre s2.procs.length s2 := rfl
  rw [← hs'] at r rex
  have hj' : s'.job = s1.job := r.job
  have hn' : s'.now = u := by rw [r.now, n2]
  have hact' : ∀ i ∈ s'.pending ++ s'.procs.filterMap id,
      (s'.job i).release ≤ s'.now ∧ (s'.job i).allocation < (s'.job i).cost := by
    intro i hi
    rw [r.job, hn']
    exact active2 i (r.perm.mem_iff.1 hi)
  have hevgt : ∀ e ∈ s'.events, u < e.1 := by
    intro e he
    obtain ⟨times, h1, h2⟩ := r.events
    rw [h1, List.mem_append] at he
    rcases he with he | he
    · exact ((e2 e).1 he).2
    · obtain ⟨t, ht, rfl⟩ := List.mem_map.1 he
      obtain ⟨i, hi, rfl⟩ := h2 t ht
      have := (active2 i hi).2
      unfold Job.remainingDemand
      rw [n2]; simp only; omega
  have hdl : s'.deadline ts = s2.deadline ts := by
    funext i; unfold Sim.deadline; rw [r.job]
  refine ⟨⟨?_, ?_, ?_, ?_, ?_, ?_, hact', ?_⟩, hn', hevgt, by rw [hdl]; exact rex, ?_, ?_⟩
  · rw [r.length, p2, p1, List.length_map, h.length]
  · obtain ⟨times, h1, _⟩ := r.events
    rw [h1, List.filterMap_append]
    have : (times.map (fun t => ((t, none) : ℕ × Option (Fin n)))).filterMap Prod.snd = [] := by
      simp
    rw [this, List.append_nil]
    exact (r.perm.append_left _).trans perm2
  · intro i
    rw [hj', j1]
    have := h.seqno i
    unfold served Job.initNext; split_ifs <;> first | exact this | exact Nat.le_add_left 1 _
  · intro i
    rw [hj', j1]
    have h1 := h.seqno i
    have h2 := h.release i
    unfold served Job.initNext
    split_ifs
    · simp only
      rw [h2]
      obtain ⟨k, hk⟩ : ∃ k, (s.job i).seqno = k + 1 := ⟨(s.job i).seqno - 1, by omega⟩
      rw [hk]; simp [Nat.add_mul]
    · exact h2
    · exact h2
  · intro i; rw [hj']; exact cost1 i
  · intro e he i hi
    obtain ⟨times, h1, _⟩ := r.events
    rw [h1, List.mem_append] at he
    rw [hj']
    rcases he with he | he
    · exact waiting1 e ((e2 e).1 he).1 i hi
    · obtain ⟨t, _, rfl⟩ := List.mem_map.1 he
      simp at hi
  · intro i hi
    obtain ⟨times, h1, _⟩ := r.events
    rw [hn']
    rcases r.running i hi with hr | hr
    · obtain ⟨e, he, heq⟩ := wakeup2 i hr
      exact ⟨e, by rw [h1]; simp [he], by rw [r.job]; exact heq⟩
    · exact ⟨_, hr, by rw [r.job, n2]⟩
  · rw [hj', j1]
  · rw [r.calls]; exact c1

/-- The state in which `simulate_until` is entered. -/
theorem ready_core (ts : Fin n → Task) (m : ℕ) :
    Core ts m (Sim.ready ts m) ∧ (Sim.ready ts m).now = 0 ∧
    (∀ e ∈ (Sim.ready ts m).events, e.1 = 0) ∧ (Sim.ready ts m).calls = [] ∧
    (Sim.ready ts m).pending = [] ∧ (∀ p ∈ (Sim.ready ts m).procs, p = none) ∧
    (Sim.ready ts m).job = (fun i => Job.init (ts i)) := by
  have key : ∀ (l : List (Fin n)) (s : Sim n), s.now = 0 → (∀ i, (s.job i).release = 0) →
      l.foldl Sim.addRelease s = { s with events := s.events ++ l.map (fun i => (0, some i)) } := by
    intro l
    induction l with
    | nil => intro s _ _; simp
    | cons a as ih =>
      intro s h1 h2
      rw [List.foldl_cons]
      have : s.addRelease a = { s with events := s.events ++ [(0, some a)] } := by
        unfold Sim.addRelease
        rw [h1, h2]; simp
      rw [this, ih { s with events := s.events ++ [(0, some a)] } h1 h2]
      simp
  have e : Sim.ready ts m = { Sim.start ts m with
      events := (List.finRange n).map (fun i => (0, some i)) } := by
    unfold Sim.ready
    rw [key _ _ rfl (fun i => rfl)]
    simp [Sim.start]
  rw [e]
  have hrep : (List.replicate m (none : Option (Fin n))).filterMap id = [] := by
    rw [List.filterMap_eq_nil_iff]
    intro a ha; rw [List.eq_of_mem_replicate ha]; rfl
  have hmap : ((List.finRange n).map (fun i => ((0, some i) : ℕ × Option (Fin n)))).filterMap
      Prod.snd = List.finRange n := by
    have : ∀ l : List (Fin n), (l.map (fun i => ((0, some i) : ℕ × Option (Fin n)))).filterMap
        Prod.snd = l := by
      intro l; induction l with
      | nil => rfl
      | cons x xs ih => simpa using ih
    exact this _
  refine ⟨⟨by simp [Sim.start], ?_, ?_, ?_, ?_, ?_, ?_, ?_⟩, rfl, ?_, rfl, rfl, ?_, rfl⟩
  · simp only [Sim.start]; rw [hmap, hrep]; simp
  · intro i; simp [Sim.start, Job.init]
  · intro i; simp [Sim.start, Job.init]
  · intro i; simp [Sim.start, Job.init]
  · intro e he i hi
    obtain ⟨j, _, rfl⟩ := List.mem_map.1 he
    simp [Sim.start, Job.init]
  · intro i hi
    simp only [Sim.start] at hi
    rw [hrep] at hi; simp at hi
  · intro i hi
    simp [Sim.start] at hi
  · intro e he
    obtain ⟨j, _, rfl⟩ := List.mem_map.1 he
    rfl
  · intro p hp
    simp only [Sim.start] at hp
    exact List.eq_of_mem_replicate hp

end Verif.EdfSim
