/-
A concrete run with phase-fair locks, and one that shows why C94 needs requests of the same
length.
-/
import Verif.Props.PhaseFair
import Mathlib.Tactic.FinCases
import Mathlib.Data.Fin.VecNotation
import Mathlib.Tactic.IntervalCases

namespace Verif.SR.Rw
open Verif.Spec

/-- Every task has one request for resource 0, as given by `read`; only the first jobs issue it. -/
def oneSys (n : ℕ) (reqs : Fin n → List RwReq) (cluster : Fin n → ℕ) : RwSystem n where
  cluster := cluster
  period _ := 100
  response _ := 50
  reqs := reqs

def oneRun (n : ℕ) (who : Fin n → Prop) (enter acquire leave cpu : Fin n → ℕ) : RwRun n where
  release j := 100 * j.2
  finish j := 100 * j.2 + 50
  issued s := s.job.2 = 0 ∧ s.idx = 0 ∧ s.inst = 0 ∧ who s.job.1
  enter s := enter s.job.1
  acquire s := acquire s.job.1
  leave s := leave s.job.1
  cpu s := cpu s.job.1

/-- A writer is served, then two readers, then a writer that was issued before one of the readers. -/
def exInfo : Info :=
  [⟨0, 100, 100, 50, 0, 10, [⟨0, 1, 3, false⟩]⟩, ⟨1, 100, 100, 50, 1, 10, [⟨0, 1, 2, true⟩]⟩,
    ⟨2, 100, 100, 50, 2, 10, [⟨0, 1, 2, false⟩]⟩, ⟨3, 100, 100, 50, 1, 10, [⟨0, 1, 4, true⟩]⟩]

def exSys : RwSystem 4 :=
  oneSys 4 ![[⟨0, 1, 3, false⟩], [⟨0, 1, 2, true⟩], [⟨0, 1, 2, false⟩], [⟨0, 1, 4, true⟩]] ![0, 1, 2, 1]

def exRun : RwRun 4 := oneRun 4 (fun _ => True) ![0, 1, 1, 2] ![0, 3, 7, 3] ![3, 5, 9, 7] ![0, 0, 0, 1]

theorem system_exInfo : system exInfo = exSys := by
  unfold system exSys oneSys
  congr 1
  · funext i; fin_cases i <;> rfl
  · funext i; fin_cases i <;> rfl
  · funext i; fin_cases i <;> rfl
  · funext i; fin_cases i <;> rfl

theorem issued_exRun {s : Section 4} (h : exRun.issued s) : s = ⟨(s.job.1, 0), 0, 0⟩ := by
  obtain ⟨⟨i, k⟩, x, a⟩ := s
  obtain ⟨h1, h2, h3, _⟩ := h
  simp only at h1 h2 h3
  rw [h1, h2, h3]

theorem for_exRun {s : Section 4} {r : ℕ} {rd : Bool} :
    exRun.For exSys s r rd ↔ s = ⟨(s.job.1, 0), 0, 0⟩ ∧ r = 0 ∧ rd = ![false, true, false, true] s.job.1 := by
  constructor
  · rintro ⟨h1, q, h2, h3, h4⟩
    have hs := issued_exRun h1
    refine ⟨hs, ?_⟩
    rw [hs] at h2 ⊢
    generalize s.job.1 = i at *
    fin_cases i <;> (simp [exSys, oneSys] at h2; subst h2; exact ⟨h3.symm, h4.symm⟩)
  · rintro ⟨hs, rfl, rfl⟩
    rw [hs]
    generalize s.job.1 = i
    refine ⟨⟨rfl, rfl, rfl, trivial⟩, ?_⟩
    fin_cases i <;> exact ⟨_, rfl, rfl, rfl⟩

theorem phaseFair_exRun : PhaseFair 2 (-1) 0 exSys exRun where
  separated i k := by simp only [exRun, oneRun, exSys, oneSys]; omega
  responds j := by simp only [exRun, oneRun, exSys, oneSys]; omega
  declared s h := by
    rw [issued_exRun h]
    generalize s.job.1 = i
    fin_cases i <;> exact ⟨_, rfl, by decide⟩
  within s h := by
    rw [issued_exRun h]
    generalize s.job.1 = i
    fin_cases i <;> decide
  order s h := by
    rw [issued_exRun h]
    generalize s.job.1 = i
    fin_cases i <;> decide
  length s q h hq := by
    rw [issued_exRun h] at hq ⊢
    generalize s.job.1 = i at *
    fin_cases i <;> (simp [exSys, oneSys] at hq; subst hq; decide)
  serial s s' h h' he hne := by
    exfalso; apply hne
    rw [issued_exRun h, issued_exRun h', he]
  cpu_lt s h := by
    rw [issued_exRun h]
    generalize s.job.1 = i
    fin_cases i <;> decide
  irq_lt h := by omega
  not_irq s h hi := by omega
  one s s' h h' hc hp hne := by
    rw [issued_exRun h, issued_exRun h'] at hc hp hne ⊢
    generalize s.job.1 = i at *
    generalize s'.job.1 = i' at *
    revert hc hp hne
    fin_cases i <;> fin_cases i' <;> decide
  exclusive s s' r rd h h' hne := by
    rw [for_exRun] at h h'
    rw [h.1, h'.1] at hne ⊢
    have h := h.2.2
    generalize s.job.1 = i at *
    generalize s'.job.1 = i' at *
    revert h hne
    clear h'
    fin_cases i <;> fin_cases i' <;> decide
  progress s r rd t h h1 h2 := by
    rw [for_exRun] at h
    have hr := h.2.1
    rw [h.1] at h1 h2
    subst hr
    have : ∀ i : Fin 4, exRun.For exSys ⟨(i, 0), 0, 0⟩ 0 (![false, true, false, true] i) :=
      fun i => for_exRun.mpr ⟨rfl, rfl, rfl⟩
    clear h
    generalize s.job.1 = i at *
    have hcases : t < 3 ∨ (3 ≤ t ∧ t < 7) := by
      fin_cases i <;> simp [exRun, oneRun] at h1 h2 <;> omega
    rcases hcases with hc | ⟨hc1, hc2⟩
    · exact ⟨_, _, this 0, by simp [exRun, oneRun, RwRun.Served]; omega⟩
    · exact ⟨_, _, this 3, by simp [exRun, oneRun, RwRun.Served]; omega⟩
  fifo w w' r h h' ha := by
    rw [for_exRun] at h h'
    rw [h.1, h'.1] at ha ⊢
    have h := h.2.2
    have h' := h'.2.2
    generalize w.job.1 = i at *
    generalize w'.job.1 = i' at *
    revert h h' ha
    fin_cases i <;> fin_cases i' <;> decide
  needed s r t h h1 h2 := by
    rw [for_exRun] at h
    have hr := h.2.1
    rw [h.1] at h1 h2
    have hrd := h.2.2
    subst hr
    refine ⟨⟨(0, 0), 0, 0⟩, for_exRun.mpr ⟨rfl, rfl, rfl⟩, ?_⟩
    clear h
    generalize s.job.1 = i at *
    fin_cases i <;> simp [exRun, oneRun] at hrd h1 h2 ⊢ <;> omega
  turn s w r h h' h1 h2 := by
    rw [for_exRun] at h h'
    rw [h.1, h'.1] at h1 h2 ⊢
    have h := h.2.2
    have h' := h'.2.2
    generalize s.job.1 = i at *
    generalize w.job.1 = i' at *
    revert h h' h1 h2
    fin_cases i <;> fin_cases i' <;> decide
  together s s' r h h' h1 := by
    rw [for_exRun] at h h'
    rw [h.1, h'.1] at h1 ⊢
    have h := h.2.2
    have h' := h'.2.2
    generalize s.job.1 = i at *
    generalize s'.job.1 = i' at *
    revert h h' h1
    fin_cases i <;> fin_cases i' <;> decide
  concede s w r h h' h1 h2 := by
    rw [for_exRun] at h h'
    have hr := h.2.1
    subst hr
    refine ⟨⟨(0, 0), 0, 0⟩, for_exRun.mpr ⟨rfl, rfl, rfl⟩, ?_⟩
    rw [h.1, h'.1] at h1 h2
    rw [h.1]
    have h := h.2.2
    have h' := h'.2.2
    generalize s.job.1 = i at *
    generalize w.job.1 = i' at *
    revert h h' h1 h2
    fin_cases i <;> fin_cases i' <;> decide

/-- The hypotheses of C94 are met by a run in which requests wait. -/
example : PhaseFair 2 (-1) 0 (system exInfo) exRun ∧ exRun.waiting (system exInfo) (2, 0) = 6 ∧
    exRun.leave ⟨(1, 0), 0, 0⟩ = exRun.enter ⟨(1, 0), 0, 0⟩ + 4 ∧
    (pfBounds exInfo 2 (-1)).map (fun b => (b.blocking.total, b.arrival.total)) =
      [(8, 0), (20, 11), (9, 0), (7, 0)] ∧ (∀ t ∈ exInfo, 0 < t.period) ∧
    ∀ t ∈ exInfo, ∀ a ∈ t.requests, ∀ b ∈ t.requests, a.resId = b.resId → a.isRead = b.isRead →
      a.length = b.length := by
  refine ⟨by rw [system_exInfo]; exact phaseFair_exRun, ?_, rfl, by decide, by decide, by decide⟩
  rw [system_exInfo]
  unfold RwRun.waiting
  have hlen : (exSys.reqs 2).length = 1 := rfl
  rw [Finset.sum_eq_single (⟨0, by rw [hlen]; decide⟩ : Fin (exSys.reqs 2).length)]
  · have : ((exSys.reqs 2).get ⟨0, by rw [hlen]; decide⟩).num = 1 := rfl
    rw [this, Finset.sum_range_one, if_pos ⟨rfl, rfl, rfl, trivial⟩]
    rfl
  · intro b _ hb
    exfalso; apply hb
    apply Fin.ext
    have : (b : ℕ) < 1 := lt_of_lt_of_eq b.2 hlen
    simp only
    omega
  · intro h; exact absurd (Finset.mem_univ _) h

/-! ### Requests of different lengths -/

/-- Task 1 has write requests of length 5 and of length 1 for the same resource. -/
def badInfo : Info :=
  [⟨0, 100, 100, 50, 0, 10, []⟩, ⟨1, 100, 100, 50, 0, 10, [⟨0, 1, 5, false⟩, ⟨0, 1, 1, false⟩]⟩]

def badSys : RwSystem 2 := oneSys 2 ![[], [⟨0, 1, 5, false⟩, ⟨0, 1, 1, false⟩]] ![0, 0]

def badRun : RwRun 2 := oneRun 2 (fun i => i = 1) ![0, 0] ![0, 0] ![0, 5] ![0, 0]

theorem system_badInfo : system badInfo = badSys := by
  unfold system badSys oneSys
  congr 1
  · funext i; fin_cases i <;> rfl
  · funext i; fin_cases i <;> rfl
  · funext i; fin_cases i <;> rfl
  · funext i; fin_cases i <;> rfl

theorem issued_badRun {s : Section 2} (h : badRun.issued s) : s = ⟨(1, 0), 0, 0⟩ := by
  obtain ⟨⟨i, k⟩, x, a⟩ := s
  obtain ⟨h1, h2, h3, h4⟩ := h
  simp only at h1 h2 h3 h4
  rw [h1, h2, h3, h4]

theorem for_badRun {s : Section 2} {r : ℕ} {rd : Bool} (h : badRun.For badSys s r rd) :
    s = ⟨(1, 0), 0, 0⟩ ∧ rd = false := by
  obtain ⟨h1, q, h2, _, h4⟩ := h
  have hs := issued_badRun h1
  subst hs
  refine ⟨rfl, ?_⟩
  simp [badSys, oneSys] at h2
  subst h2
  exact h4.symm

theorem phaseFair_badRun : PhaseFair 1 (-1) 0 badSys badRun where
  separated i k := by simp only [badRun, oneRun, badSys, oneSys]; omega
  responds j := by simp only [badRun, oneRun, badSys, oneSys]; omega
  declared s h := by rw [issued_badRun h]; exact ⟨_, rfl, by decide⟩
  within s h := by rw [issued_badRun h]; decide
  order s h := by rw [issued_badRun h]; decide
  length s q h hq := by
    rw [issued_badRun h] at hq ⊢
    simp [badSys, oneSys] at hq
    subst hq
    decide
  serial s s' h h' _ hne := absurd ((issued_badRun h).trans (issued_badRun h').symm) hne
  cpu_lt s h := by rw [issued_badRun h]; decide
  irq_lt h := by omega
  not_irq s h hi := by omega
  one s s' h h' _ _ hne := absurd ((issued_badRun h).trans (issued_badRun h').symm) hne
  exclusive s s' r rd h h' hne := absurd ((issued_badRun h.1).trans (issued_badRun h'.1).symm) hne
  progress s r rd t h h1 h2 := by
    rw [issued_badRun h.1] at h2; simp [badRun, oneRun] at h2
  fifo w w' r h h' ha := by
    rw [issued_badRun h.1, issued_badRun h'.1] at ha; exact absurd ha (lt_irrefl _)
  needed s r t h _ _ := absurd (for_badRun h).2 (by decide)
  turn s w r h _ _ _ := absurd (for_badRun h).2 (by decide)
  together s s' r h _ _ := absurd (for_badRun h).2 (by decide)
  concede s w r h _ _ _ := absurd (for_badRun h).2 (by decide)

/-- **C94.** If a task has write requests of different lengths for a resource, then the arrival
blocking bound may be too small: only the length of the last entry counts. -/
theorem C94_lengths_violated : ∃ (info : Info) (procs irqCpu : ℕ) (irq : ℤ) (R : RwRun info.length)
    (i : Fin info.length) (s : Section info.length) (b : Bound), (∀ t ∈ info, 0 < t.period) ∧
    PhaseFair procs irq irqCpu (system info) R ∧ R.issued s ∧ s.job.1 ≠ i ∧
    (info.get s.job.1).cluster = (info.get i).cluster ∧ (info.get i).priority ≤ (info.get s.job.1).priority ∧
    (pfBounds info procs irq)[(i : ℕ)]? = some b ∧ R.enter s + b.arrival.total < R.leave s := by
  refine ⟨badInfo, 1, 0, -1, badRun, (0 : Fin 2), ⟨((1 : Fin 2), 0), 0, 0⟩, ⟨⟨1, 1⟩, ⟨0, 0⟩, ⟨0, 0⟩, ⟨1, 1⟩⟩,
    by decide, ?_, ⟨rfl, rfl, rfl, rfl⟩, (by decide : (1 : Fin 2) ≠ 0), rfl, by decide, by decide, by decide⟩
  rw [system_badInfo]
  exact phaseFair_badRun

end Verif.SR.Rw
