/-
C90: a run of the MSRP in which a job spins and another one is blocked.
-/
import Verif.Props.MsrpFp
import Mathlib.Data.Fin.VecNotation
import Mathlib.Algebra.BigOperators.Fin
import Mathlib.Tactic.FinCases

namespace Verif.SR.Msrp
open Spec

/-- Tasks 1 and 2, on different processors, share a resource; task 0 has relative
deadline `d` and runs on the processor of task 1. -/
def exInfo (d : ℕ) : Info :=
  [⟨0, 20, d, d, 0, 1, []⟩, ⟨1, 20, 10, 10, 0, 2, [⟨0, 1, 2, false⟩]⟩,
    ⟨1, 20, 10, 10, 1, 2, [⟨0, 1, 2, false⟩]⟩]

/-- The same tasks, written as functions. -/
def exSys (d : ℕ) : LockSystem 3 where
  proc := ![0, 0, 1]
  cost := ![1, 2, 2]
  period := ![20, 20, 20]
  deadline := ![d, 10, 10]
  reqs := ![[], [⟨0, 1, 2⟩], [⟨0, 1, 2⟩]]

theorem system_exInfo (d : ℕ) : system (exInfo d) = exSys d := by
  unfold system exSys
  congr 1 <;>
  · funext (i : Fin 3)
    fin_cases i <;> rfl

/-- Tasks 1 and 2 request the resource at time 0; task 2 comes first.  The job of task 0
is released at time 1 and waits until task 1, which spins until time 2, has released the
resource at time 4. -/
def exRun : LockRun 3 where
  work := ⟨fun j => (if j.1 = 0 then 1 else 0) + 20 * j.2, fun j => if j.2 = 0 then ![1, 4, 2] j.1 else 0⟩
  sched t := ({(0, 0), (1, 0), (2, 0)} : Finset (Job 3)).filter (fun j =>
    (j.1 = 1 ∧ t < 4) ∨ (j.1 = 2 ∧ t < 2) ∨ (j.1 = 0 ∧ t = 4))
  issued s := s.job.1 ≠ 0 ∧ s.job.2 = 0 ∧ s.idx = 0 ∧ s.inst = 0
  enter _ := 0
  acquire s := if s.job.1 = 1 then 2 else 0
  leave s := if s.job.1 = 1 then 4 else 2

theorem mem_exRun {j : Job 3} {t : ℕ} : j ∈ exRun.sched t ↔
    (j = (1, 0) ∧ t < 4) ∨ (j = (2, 0) ∧ t < 2) ∨ (j = (0, 0) ∧ t = 4) := by
  unfold exRun
  simp only [Finset.mem_filter, Finset.mem_insert, Finset.mem_singleton]
  constructor
  · rintro ⟨rfl | rfl | rfl, h⟩ <;> simp at h ⊢ <;> exact h
  · rintro (⟨rfl, h⟩ | ⟨rfl, h⟩ | ⟨rfl, h⟩) <;> simp [h]

theorem service_exRun (t : ℕ) : service exRun.sched (1, 0) t = min t 4 ∧
    service exRun.sched (2, 0) t = min t 2 ∧ service exRun.sched (0, 0) t = if t ≤ 4 then 0 else 1 := by
  induction t with
  | zero => simp [service]
  | succ t ih =>
    obtain ⟨h1, h2, h3⟩ := ih
    rw [service_succ, service_succ, service_succ, h1, h2, h3]
    simp only [mem_exRun]
    refine ⟨?_, ?_, ?_⟩
    · by_cases h : t < 4 <;> simp [h] <;> omega
    · by_cases h : t < 2 <;> simp [h] <;> omega
    · by_cases h : t = 4
      · simp [h]
      · simp only [h]
        simp
        split_ifs <;> omega

theorem global_exSys (d r : ℕ) : (exSys d).Global r ↔ r = 0 := by
  constructor
  · rintro ⟨i, _, ⟨q, hq, rfl⟩, _⟩
    fin_cases i <;> simp [exSys] at hq <;> rw [hq]
  · rintro rfl
    exact ⟨1, 2, ⟨⟨0, 1, 2⟩, by simp [exSys], rfl⟩, ⟨⟨0, 1, 2⟩, by simp [exSys], rfl⟩, by simp [exSys]⟩

theorem ready_exRun {j : Job 3} {t : ℕ} : Ready exRun.work exRun.sched j t ↔
    (j = (1, 0) ∧ t < 4) ∨ (j = (2, 0) ∧ t < 2) ∨ (j = (0, 0) ∧ 1 ≤ t ∧ t ≤ 4) := by
  obtain ⟨h1, h2, h3⟩ := service_exRun t
  obtain ⟨i, k⟩ := j
  unfold Ready Pending Completed
  by_cases hk : k = 0
  · subst hk
    fin_cases i
    · have h1' : service exRun.sched ((⟨0, by decide⟩ : Fin 3), 0) t = if t ≤ 4 then 0 else 1 := h3
      simp [exRun] at h1' ⊢
      simp [h1']
    · have h1' : service exRun.sched ((⟨1, by decide⟩ : Fin 3), 0) t = min t 4 := h1
      simp [exRun] at h1' ⊢
      simp [h1']
    · have h1' : service exRun.sched ((⟨2, by decide⟩ : Fin 3), 0) t = min t 2 := h2
      simp [exRun] at h1' ⊢
      simp [h1']
  · simp [exRun, hk]

theorem spinRun_exRun (d : ℕ) : SpinRun (exSys d) exRun where
  separated i k := by
    simp only [exRun, exSys]
    fin_cases i <;> simp <;> omega
  cost j := by
    obtain ⟨i, k⟩ := j
    by_cases hk : k = 0
    · subst hk
      fin_cases i
      · exact Nat.le_add_right _ _
      · have : exRun.spin (exSys d) (1, 0) = 2 := by
          unfold LockRun.spin
          show (∑ q : Fin 1, _) = 2
          rw [Fin.sum_univ_one]
          simp [exRun, exSys]
        change 4 ≤ 2 + exRun.spin (exSys d) (1, 0)
        omega
      · exact Nat.le_add_right _ _
    · simp [exRun, hk]
  one t j hj j' hj' hp := by
    rw [mem_exRun] at hj hj'
    rcases hj with ⟨rfl, h⟩ | ⟨rfl, h⟩ | ⟨rfl, h⟩ <;> rcases hj' with ⟨rfl, h'⟩ | ⟨rfl, h'⟩ | ⟨rfl, h'⟩ <;>
      first
      | rfl
      | (exfalso; simp [exSys] at hp; done)
      | omega
  ready t j hj := by
    rw [mem_exRun] at hj
    rw [ready_exRun]
    rcases hj with ⟨rfl, h⟩ | ⟨rfl, h⟩ | ⟨rfl, h⟩
    · exact Or.inl ⟨rfl, h⟩
    · exact Or.inr (Or.inl ⟨rfl, h⟩)
    · exact Or.inr (Or.inr ⟨rfl, by omega, by omega⟩)
  declared s hs := by
    obtain ⟨⟨i, k⟩, x, a⟩ := s
    obtain ⟨h1, h2, h3, h4⟩ := hs
    simp only at h1 h2 h3 h4
    subst h2 h3 h4
    fin_cases i
    · exact absurd rfl h1
    · exact ⟨_, rfl, by decide⟩
    · exact ⟨_, rfl, by decide⟩
  order s _ := by simp only [exRun]; split_ifs <;> omega
  starts s hs _ := by
    obtain ⟨⟨i, k⟩, x, a⟩ := s
    obtain ⟨h1, h2, h3, h4⟩ := hs
    simp only at h1 h2 h3 h4
    subst h2
    rw [mem_exRun]
    fin_cases i
    · exact absurd rfl h1
    · exact Or.inl ⟨rfl, Nat.succ_pos 3⟩
    · exact Or.inr (Or.inl ⟨rfl, Nat.succ_pos 1⟩)
  length s q hs hq := by
    obtain ⟨⟨i, k⟩, x, a⟩ := s
    obtain ⟨h1, h2, h3, h4⟩ := hs
    simp only at h1 h2 h3 h4
    subst h2 h3 h4
    refine (Finset.card_filter_le _ _).trans ?_
    rw [Nat.card_Ico]
    fin_cases i
    · exact absurd rfl h1
    · obtain rfl : (⟨0, 1, 2⟩ : Req) = q := Option.some.inj hq
      exact le_of_eq rfl
    · obtain rfl : (⟨0, 1, 2⟩ : Req) = q := Option.some.inj hq
      exact le_of_eq rfl
  serial s s' hs hs' hj hne := by
    obtain ⟨j, x, a⟩ := s
    obtain ⟨j', x', a'⟩ := s'
    obtain ⟨_, _, h3, h4⟩ := hs
    obtain ⟨_, _, h3', h4'⟩ := hs'
    simp only at hj h3 h4 h3' h4'
    subst hj h3 h4 h3' h4'
    exact absurd rfl hne
  immediate s q hs hq hg := by
    exfalso
    apply hg
    rw [global_exSys]
    obtain ⟨⟨i, k⟩, x, a⟩ := s
    have hm := List.mem_of_getElem? hq
    fin_cases i <;> simp [exSys] at hm <;> rw [hm]
  nonpreemptive s q t hs hq hg _ h := by
    obtain ⟨⟨i, k⟩, x, a⟩ := s
    obtain ⟨h1, h2, h3, h4⟩ := hs
    simp only at h1 h2 h3 h4
    subst h2
    rw [mem_exRun]
    fin_cases i
    · exact absurd rfl h1
    · exact Or.inl ⟨rfl, h⟩
    · exact Or.inr (Or.inl ⟨rfl, h⟩)
  fifo s q t hs hq hg _ h := by
    obtain ⟨⟨i, k⟩, x, a⟩ := s
    obtain ⟨h1, h2, h3, h4⟩ := hs
    simp only at h1 h2 h3 h4
    subst h2 h3 h4
    fin_cases i
    · exact absurd rfl h1
    · obtain rfl : (⟨0, 1, 2⟩ : Req) = q := Option.some.inj hq
      refine ⟨⟨(2, 0), 0, 0⟩, ⟨0, 1, 2⟩, ⟨by decide, rfl, rfl, rfl⟩, rfl, rfl, le_rfl, Nat.zero_le _, h⟩
    · exact absurd h (Nat.not_lt_zero _)

theorem ceiling_exRun (d : ℕ) {s : Section 3} {q : Req} (hq : ((exSys d).reqs s.job.1)[s.idx]? = some q) :
    (exSys d).Global q.res := by
  rw [global_exSys]
  obtain ⟨⟨i, k⟩, x, a⟩ := s
  have hm := List.mem_of_getElem? hq
  fin_cases i <;> simp [exSys] at hm <;> rw [hm]

/-- Whoever waits in the run is blocked by the section of task 1. -/
theorem blocked_exRun (d : ℕ) {t : ℕ} {j : Job 3} (hr : Ready exRun.work exRun.sched j t)
    (hj : j ∉ exRun.sched t) : ∃ j' ∈ exRun.sched t, (exSys d).proc j'.1 = (exSys d).proc j.1 ∧
      ∃ s q, exRun.issued s ∧ s.job = j' ∧ ((exSys d).reqs s.job.1)[s.idx]? = some q ∧
          exRun.enter s < t ∧ t < exRun.leave s ∧ (exSys d).Global q.res := by
  rw [ready_exRun] at hr
  rw [mem_exRun] at hj
  rcases hr with ⟨rfl, h⟩ | ⟨rfl, h⟩ | ⟨rfl, h, h'⟩
  · exact absurd (Or.inl ⟨rfl, h⟩) hj
  · exact absurd (Or.inr (Or.inl ⟨rfl, h⟩)) hj
  · have h4 : t ≠ 4 := fun h4 => hj (Or.inr (Or.inr ⟨rfl, h4⟩))
    refine ⟨(1, 0), mem_exRun.2 (Or.inl ⟨rfl, by omega⟩), rfl, ⟨(1, 0), 0, 0⟩, ⟨0, 1, 2⟩,
      ⟨by decide, rfl, rfl, rfl⟩, rfl, rfl, h, ?_, (global_exSys d 0).2 rfl⟩
    show t < 4
    omega

theorem msrp_exRun (d : ℕ) : Spec.Msrp (exSys d) exRun where
  toSpinRun := spinRun_exRun d
  ceiling s q t hs hq hg := absurd (ceiling_exRun d hq) hg
  edf t j hr hj := by
    obtain ⟨j', h1, h2, s, q, h3, h4, h5, h6, h7, h8⟩ := blocked_exRun d hr hj
    exact ⟨j', h1, h2, Or.inr ⟨s, q, h3, h4, h5, h6, h7, Or.inl h8⟩⟩

theorem msrpFp_exRun (d : ℕ) (prio : Fin 3 → ℕ) : MsrpFp (exSys d) prio exRun where
  toSpinRun := spinRun_exRun d
  ceiling s q t hs hq hg := absurd (ceiling_exRun d hq) hg
  fp t j hr hj := by
    obtain ⟨j', h1, h2, s, q, h3, h4, h5, h6, h7, h8⟩ := blocked_exRun d hr hj
    exact ⟨j', h1, h2, Or.inr ⟨s, q, h3, h4, h5, h6, h7, Or.inl h8⟩⟩

/-- The tasks are accepted for two processors, and the run above is one of their runs. -/
example : pedfMsrpClassic 20 (exInfo 5) 2 = some true ∧ (∃ R, Spec.Msrp (system (exInfo 5)) R) ∧
    MsrpSchedulable (system (exInfo 5)) := by
  refine ⟨by decide +kernel, ⟨exRun, ?_⟩, C90_msrp_safe _ 2 20 (by decide) (by decide) (by decide) (by decide)
    (by decide +kernel)⟩
  rw [system_exInfo]
  exact msrp_exRun 5

/-- With a shorter deadline they are rejected. -/
example : pedfMsrpClassic 20 (exInfo 4) 2 = some false := by decide +kernel

/-- **C90**, the numbers of the processors: if a task is assigned to a processor whose number is
not below the given number of processors, tasks may be accepted although a deadline can be
missed. -/
theorem C90_msrp_processors_needed : ∃ (info : Info) (fuel : ℕ),
    (∀ t ∈ info, 0 < t.period ∧ 0 < t.deadline ∧ t.cluster < 2) ∧
    (∀ a ∈ info, ∀ b ∈ info, a.priority ≤ b.priority ↔ a.deadline ≤ b.deadline) ∧
    pedfMsrpClassic fuel info 1 = some true ∧ ¬ MsrpSchedulable (system info) := by
  refine ⟨exInfo 3, 20, by decide, by decide, by decide +kernel, fun h => ?_⟩
  have h' : MsrpSchedulable (exSys 3) := by rw [← system_exInfo]; exact h
  have := h' exRun (msrp_exRun 3) (0, 0)
  change 1 ≤ service exRun.sched (0, 0) 4 at this
  rw [(service_exRun 4).2.2] at this
  simp at this

/-- Under fixed priorities the analysis accepts the same tasks, with response times of 5 on
processor 0, and the run above is one of their runs; its first job has response time 4. -/
example : ((Fp.boundResponseTimes 20 1 (afterMsrpBounds (exInfo 5) 2 0)).map
      (fun r => (r.1, r.2.map Prod.snd)) = some (true, [5, 5])) ∧
    (exInfo 5).Pairwise (fun a b => a.cluster = b.cluster → a.priority < b.priority) ∧
    ∃ R, MsrpFp (system (exInfo 5)) (fun i => ((exInfo 5).get i).priority) R := by
  refine ⟨by decide +kernel, by decide, exRun, ?_⟩
  have := msrpFp_exRun 5 (fun i => ((exInfo 5).get i).priority)
  rw [← system_exInfo] at this
  exact this

end Verif.SR.Msrp
