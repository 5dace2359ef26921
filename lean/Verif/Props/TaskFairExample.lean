/-
A concrete run with task-fair locks that meets the hypotheses of C95.
-/
import Verif.Props.TaskFair
import Verif.Props.PhaseFairExample

namespace Verif.SR.Rw
open Verif.Spec

/-- The tasks of `exInfo`, as given in Python. -/
def exTasks : List LockTask :=
  [⟨100, 50, 0, 0, 10, 100, [⟨0, 1, 3, 0, 0⟩]⟩, ⟨100, 50, 1, 1, 10, 100, [⟨0, 0, 0, 1, 2⟩]⟩,
    ⟨100, 50, 2, 2, 10, 100, [⟨0, 1, 2, 0, 0⟩]⟩, ⟨100, 50, 1, 3, 10, 100, [⟨0, 0, 0, 1, 4⟩]⟩]

theorem rwModel_exTasks : rwModel exTasks = exInfo := rfl

/-- The writer of task 2 is served before the reader that was issued later. -/
def tfRun : RwRun 4 := oneRun 4 (fun _ => True) ![0, 1, 1, 2] ![0, 3, 5, 7] ![3, 5, 7, 11] ![0, 0, 0, 1]

theorem issued_tfRun {s : Section 4} (h : tfRun.issued s) : s = ⟨(s.job.1, 0), 0, 0⟩ := by
  obtain ⟨⟨i, k⟩, x, a⟩ := s
  obtain ⟨h1, h2, h3, _⟩ := h
  simp only at h1 h2 h3
  rw [h1, h2, h3]

theorem for_tfRun {s : Section 4} {r : ℕ} {rd : Bool} :
    tfRun.For exSys s r rd ↔ s = ⟨(s.job.1, 0), 0, 0⟩ ∧ r = 0 ∧ rd = ![false, true, false, true] s.job.1 := by
  constructor
  · rintro ⟨h1, q, h2, h3, h4⟩
    have hs := issued_tfRun h1
    refine ⟨hs, ?_⟩
    rw [hs] at h2 ⊢
    generalize s.job.1 = i at *
    fin_cases i <;> (simp [exSys, oneSys] at h2; subst h2; exact ⟨h3.symm, h4.symm⟩)
  · rintro ⟨hs, rfl, rfl⟩
    rw [hs]
    generalize s.job.1 = i
    refine ⟨⟨rfl, rfl, rfl, trivial⟩, ?_⟩
    fin_cases i <;> exact ⟨_, rfl, rfl, rfl⟩

theorem taskFair_tfRun : TaskFair 2 (-1) 0 exSys tfRun where
  separated i k := by simp only [tfRun, oneRun, exSys, oneSys]; omega
  responds j := by simp only [tfRun, oneRun, exSys, oneSys]; omega
  declared s h := by
    rw [issued_tfRun h]
    generalize s.job.1 = i
    fin_cases i <;> exact ⟨_, rfl, by decide⟩
  within s h := by
    rw [issued_tfRun h]
    generalize s.job.1 = i
    fin_cases i <;> decide
  order s h := by
    rw [issued_tfRun h]
    generalize s.job.1 = i
    fin_cases i <;> decide
  length s q h hq := by
    rw [issued_tfRun h] at hq ⊢
    generalize s.job.1 = i at *
    fin_cases i <;> (simp [exSys, oneSys] at hq; subst hq; decide)
  serial s s' h h' he hne := by
    exfalso; apply hne
    rw [issued_tfRun h, issued_tfRun h', he]
  cpu_lt s h := by
    rw [issued_tfRun h]
    generalize s.job.1 = i
    fin_cases i <;> decide
  irq_lt h := by omega
  not_irq s h hi := by omega
  one s s' h h' hc hp hne := by
    rw [issued_tfRun h, issued_tfRun h'] at hc hp hne ⊢
    generalize s.job.1 = i at *
    generalize s'.job.1 = i' at *
    revert hc hp hne
    fin_cases i <;> fin_cases i' <;> decide
  exclusive s s' r rd h h' hne := by
    rw [for_tfRun] at h h'
    rw [h.1, h'.1] at hne ⊢
    have h := h.2.2
    generalize s.job.1 = i at *
    generalize s'.job.1 = i' at *
    revert h hne
    clear h'
    fin_cases i <;> fin_cases i' <;> decide
  progress s r rd t h h1 h2 := by
    rw [for_tfRun] at h
    have hr := h.2.1
    rw [h.1] at h1 h2
    subst hr
    have : ∀ i : Fin 4, tfRun.For exSys ⟨(i, 0), 0, 0⟩ 0 (![false, true, false, true] i) :=
      fun i => for_tfRun.mpr ⟨rfl, rfl, rfl⟩
    clear h
    generalize s.job.1 = i at *
    have hcases : t < 3 ∨ (3 ≤ t ∧ t < 5) ∨ (5 ≤ t ∧ t < 7) := by
      fin_cases i <;> simp [tfRun, oneRun] at h1 h2 <;> omega
    rcases hcases with hc | ⟨hc1, hc2⟩ | ⟨hc1, hc2⟩
    · exact ⟨_, _, this 0, by simp [tfRun, oneRun, RwRun.Served]; omega⟩
    · exact ⟨_, _, this 1, by simp [tfRun, oneRun, RwRun.Served]; omega⟩
    · exact ⟨_, _, this 2, by simp [tfRun, oneRun, RwRun.Served]; omega⟩
  fifo s s' r rd rd' h h' ha := by
    rw [for_tfRun] at h h'
    rw [h.1, h'.1] at ha ⊢
    generalize s.job.1 = i at *
    generalize s'.job.1 = i' at *
    revert ha
    clear h h'
    fin_cases i <;> fin_cases i' <;> decide
  needed s r t h h1 h2 := by
    rw [for_tfRun] at h
    have hr := h.2.1
    rw [h.1] at h1 h2 ⊢
    have hrd := h.2.2
    subst hr
    clear h
    generalize s.job.1 = i at *
    fin_cases i
    · exact absurd hrd (by decide)
    · refine ⟨⟨(0, 0), 0, 0⟩, for_tfRun.mpr ⟨rfl, rfl, rfl⟩, ?_⟩
      simp [tfRun, oneRun] at h1 h2 ⊢; omega
    · exact absurd hrd (by decide)
    · refine ⟨⟨(2, 0), 0, 0⟩, for_tfRun.mpr ⟨rfl, rfl, rfl⟩, ?_⟩
      simp [tfRun, oneRun] at h1 h2 ⊢; omega

/-- The hypotheses of C95 are met by a run in which requests wait. -/
example : TaskFair 2 (-1) 0 (system (rwModel exTasks)) tfRun ∧
    tfRun.waiting (system (rwModel exTasks)) ((3 : Fin 4), 0) = 5 ∧
    (applyTaskFairRw exTasks 2 (-1)).map (fun b => (b.blocking.total, b.arrival.total)) =
      [(8, 0), (20, 11), (9, 0), (7, 0)] ∧ (∀ t ∈ exTasks, 0 < t.period) ∧
    ∀ t ∈ exTasks, (t.resmodel.map (fun q => q.resId)).Nodup := by
  refine ⟨?_, ?_, by decide, by decide, by decide⟩
  · change TaskFair 2 (-1) 0 (system exInfo) tfRun
    rw [system_exInfo]; exact taskFair_tfRun
  change tfRun.waiting (system exInfo) ((3 : Fin 4), 0) = 5
  rw [system_exInfo]
  unfold RwRun.waiting
  have hlen : (exSys.reqs 3).length = 1 := rfl
  rw [Finset.sum_eq_single (⟨0, by rw [hlen]; decide⟩ : Fin (exSys.reqs 3).length)]
  · have : ((exSys.reqs 3).get ⟨0, by rw [hlen]; decide⟩).num = 1 := rfl
    rw [this, Finset.sum_range_one, if_pos ⟨rfl, rfl, rfl, trivial⟩]
    rfl
  · intro b _ hb
    exfalso; apply hb
    apply Fin.ext
    have : (b : ℕ) < 1 := lt_of_lt_of_eq b.2 hlen
    simp only
    omega
  · intro h; exact absurd (Finset.mem_univ _) h

end Verif.SR.Rw
