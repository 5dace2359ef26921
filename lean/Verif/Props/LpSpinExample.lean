/-
C102, C103: the tasks and the run of `MsrpExample`, with bounds computed with linear programs.
-/
import Verif.Props.LpSpin
import Verif.Props.MsrpExample
import Verif.Lemmas.LpExample

namespace Verif.SR.Lp
open Verif.Spec
open Verif.SR.Msrp (system exRun msrpFp_exRun system_exInfo)

/-- A solution: resource 0 causes arrival blocking, due to all requests. -/
def exArrival (k : Key) : ℚ := if k.ty = .indirect ∨ k.ty = .preempt then 1 else 0

/-- A solution: all requests cause direct blocking. -/
def exDirect (k : Key) : ℚ := if k.ty = .direct then 1 else 0

theorem exArrival_range (k : Key) : 0 ≤ exArrival k ∧ exArrival k ≤ 1 := by
  unfold exArrival
  split_ifs <;> simp

theorem exDirect_range (k : Key) : 0 ≤ exDirect k ∧ exDirect k ≤ 1 := by
  unfold exDirect
  split_ifs <;> simp

/-- The programs of the tasks. -/
def exObjective1 : Exp := [(2, ⟨.direct, 1, 0, 0⟩), (2, ⟨.indirect, 1, 0, 0⟩)]
def exObjective2 : Exp := [(2, ⟨.direct, 2, 0, 0⟩), (2, ⟨.indirect, 2, 0, 0⟩)]
def exMutex1 : Exp × ℚ := ([(1, ⟨.direct, 1, 0, 0⟩), (1, ⟨.indirect, 1, 0, 0⟩)], 1)
def exMutex2 : Exp × ℚ := ([(1, ⟨.direct, 2, 0, 0⟩), (1, ⟨.indirect, 2, 0, 0⟩)], 1)

theorem le_two {y : Key → ℚ} {P : Program} (hy : P.Feasible y) :
    (exMutex1 ∈ P.inequalities → termSum y exObjective1 ≤ 2) ∧
    (exMutex2 ∈ P.inequalities → termSum y exObjective2 ≤ 2) := by
  constructor <;> intro h <;> have := hy.le _ h <;>
    simp only [exMutex1, exMutex2, exObjective1, exObjective2, termSum, List.map_cons, List.map_nil, List.sum_cons,
      List.sum_nil] at this ⊢ <;> linarith

theorem maximum_arrival {P : Program} (h1 : P.objective = exObjective1 ++ exObjective2) (h2 : exMutex1 ∈ P.inequalities)
    (h3 : exMutex2 ∈ P.inequalities) (h4 : P.integers = [])
    (h5 : (∀ c ∈ P.equalities, termSum exArrival c.1 = c.2) ∧ (∀ c ∈ P.inequalities, termSum exArrival c.1 ≤ c.2) ∧
      ∀ v ∈ P.binaries, exArrival v = 0 ∨ exArrival v = 1) : P.Maximum exArrival := by
  refine ⟨⟨h5.1, h5.2.1, by rw [h4]; simp, h5.2.2, fun v _ => exArrival_range v⟩, fun y hy => ?_⟩
  have e : termSum exArrival P.objective = 4 := by rw [h1]; decide +kernel
  rw [e, h1, termSum_append]
  have := (le_two hy).1 h2
  have := (le_two hy).2 h3
  linarith

theorem maximum_direct {P : Program} (h1 : (P.objective = exObjective1 ∧ exMutex1 ∈ P.inequalities) ∨
      (P.objective = exObjective2 ∧ exMutex2 ∈ P.inequalities)) (h4 : P.integers = [])
    (h5 : (∀ c ∈ P.equalities, termSum exDirect c.1 = c.2) ∧ (∀ c ∈ P.inequalities, termSum exDirect c.1 ≤ c.2) ∧
      ∀ v ∈ P.binaries, exDirect v = 0 ∨ exDirect v = 1) : P.Maximum exDirect := by
  refine ⟨⟨h5.1, h5.2.1, by rw [h4]; simp, h5.2.2, fun v _ => exDirect_range v⟩, fun y hy => ?_⟩
  rcases h1 with ⟨h1, h2⟩ | ⟨h1, h2⟩
  · rw [h1, show termSum exDirect exObjective1 = 2 by decide +kernel]
    exact (le_two hy).1 h2
  · rw [h1, show termSum exDirect exObjective2 = 2 by decide +kernel]
    exact (le_two hy).2 h2

theorem exMsrp : msrpBounds best (Msrp.exInfo 5) = some [4, 2, 2] := by
  have h0 : solved best (msrpProgram (Msrp.exInfo 5) 0 ⟨0, 20, 5, 5, 0, 1, []⟩) = some 4 :=
    solved_best (maximum_arrival (by decide +kernel) (by decide +kernel) (by decide +kernel) (by decide +kernel)
      (by decide +kernel)) (by decide +kernel)
  have h1 : solved best (msrpProgram (Msrp.exInfo 5) 1 ⟨1, 20, 10, 10, 0, 2, [⟨0, 1, 2, false⟩]⟩) = some 2 :=
    solved_best (maximum_direct (by decide +kernel) (by decide +kernel) (by decide +kernel)) (by decide +kernel)
  have h2 : solved best (msrpProgram (Msrp.exInfo 5) 2 ⟨1, 20, 10, 10, 1, 2, [⟨0, 1, 2, false⟩]⟩) = some 2 :=
    solved_best (maximum_direct (by decide +kernel) (by decide +kernel) (by decide +kernel)) (by decide +kernel)
  exact mapM_three h0 h1 h2

theorem exBaseline : baselineBounds best (Msrp.exInfo 5) = some [4, 2, 2] := by
  have h0 : solved best (baselineProgram (Msrp.exInfo 5) 0 ⟨0, 20, 5, 5, 0, 1, []⟩) = some 4 :=
    solved_best (maximum_arrival (by decide +kernel) (by decide +kernel) (by decide +kernel) (by decide +kernel)
      (by decide +kernel)) (by decide +kernel)
  have h1 : solved best (baselineProgram (Msrp.exInfo 5) 1 ⟨1, 20, 10, 10, 0, 2, [⟨0, 1, 2, false⟩]⟩) = some 2 :=
    solved_best (maximum_direct (by decide +kernel) (by decide +kernel) (by decide +kernel)) (by decide +kernel)
  have h2 : solved best (baselineProgram (Msrp.exInfo 5) 2 ⟨1, 20, 10, 10, 1, 2, [⟨0, 1, 2, false⟩]⟩) = some 2 :=
    solved_best (maximum_direct (by decide +kernel) (by decide +kernel) (by decide +kernel)) (by decide +kernel)
  exact mapM_three h0 h1 h2

theorem exUnordered : unorderedBounds 30 best (Msrp.exInfo 5) = some [4, 2, 2] := by
  have h0 : (unorderedProgram 30 (Msrp.exInfo 5) 0 ⟨0, 20, 5, 5, 0, 1, []⟩).bind (solved best) = some 4 :=
    bind_best (fun P => P.objective = exObjective1 ++ exObjective2 ∧ exMutex1 ∈ P.inequalities ∧
      exMutex2 ∈ P.inequalities ∧ P.integers = [] ∧ (∀ c ∈ P.equalities, termSum exArrival c.1 = c.2) ∧
      (∀ c ∈ P.inequalities, termSum exArrival c.1 ≤ c.2) ∧ ∀ v ∈ P.binaries, exArrival v = 0 ∨ exArrival v = 1)
      (by decide +kernel) (fun P h => maximum_arrival h.1 h.2.1 h.2.2.1 h.2.2.2.1 h.2.2.2.2)
      (fun P h => by rw [h.1]; decide +kernel)
  have hd : ∀ P : Program, ((P.objective = exObjective1 ∧ exMutex1 ∈ P.inequalities) ∨
      (P.objective = exObjective2 ∧ exMutex2 ∈ P.inequalities)) →
      (lrint (termSum exDirect P.objective)).toNat = 2 := by
    rintro P (h | h) <;> rw [h.1] <;> decide +kernel
  have h1 : (unorderedProgram 30 (Msrp.exInfo 5) 1 ⟨1, 20, 10, 10, 0, 2, [⟨0, 1, 2, false⟩]⟩).bind (solved best) = some 2 :=
    bind_best (fun P => ((P.objective = exObjective1 ∧ exMutex1 ∈ P.inequalities) ∨
      (P.objective = exObjective2 ∧ exMutex2 ∈ P.inequalities)) ∧ P.integers = [] ∧
      (∀ c ∈ P.equalities, termSum exDirect c.1 = c.2) ∧
      (∀ c ∈ P.inequalities, termSum exDirect c.1 ≤ c.2) ∧ ∀ v ∈ P.binaries, exDirect v = 0 ∨ exDirect v = 1)
      (by decide +kernel) (fun P h => maximum_direct h.1 h.2.1 h.2.2) (fun P h => hd P h.1)
  have h2 : (unorderedProgram 30 (Msrp.exInfo 5) 2 ⟨1, 20, 10, 10, 1, 2, [⟨0, 1, 2, false⟩]⟩).bind (solved best) = some 2 :=
    bind_best (fun P => ((P.objective = exObjective1 ∧ exMutex1 ∈ P.inequalities) ∨
      (P.objective = exObjective2 ∧ exMutex2 ∈ P.inequalities)) ∧ P.integers = [] ∧
      (∀ c ∈ P.equalities, termSum exDirect c.1 = c.2) ∧
      (∀ c ∈ P.inequalities, termSum exDirect c.1 ≤ c.2) ∧ ∀ v ∈ P.binaries, exDirect v = 0 ∨ exDirect v = 1)
      (by decide +kernel) (fun P h => maximum_direct h.1 h.2.1 h.2.2) (fun P h => hd P h.1)
  exact mapM_three h0 h1 h2

/-- With all three kinds of bounds and an optimal solver, the analysis accepts the tasks, with response times of 5 on
processor 0 and 4 on processor 1, which are no longer than assumed, and there is a run in which a job
spins. -/
example : (∀ P x, best P = some x → P.Maximum x) ∧
    (∃ bs, msrpBounds best (Msrp.exInfo 5) = some bs ∧ baselineBounds best (Msrp.exInfo 5) = some bs ∧
      unorderedBounds 30 best (Msrp.exInfo 5) = some bs ∧
      ((Fp.boundResponseTimes 20 1 (afterLpBounds (Msrp.exInfo 5) bs 0)).map
        (fun r => (r.1, r.2.map Prod.snd)) = some (true, [5, 5])) ∧
      ((Fp.boundResponseTimes 20 1 (afterLpBounds (Msrp.exInfo 5) bs 1)).map
        (fun r => (r.1, r.2.map Prod.snd)) = some (true, [4]))) ∧
    (∀ t ∈ Msrp.exInfo 5, 0 < t.period ∧ t.deadline ≤ t.response ∧ (t.requests.map Request.resId).Nodup) ∧
    (Msrp.exInfo 5).Pairwise (fun a b => a.cluster = b.cluster → a.priority < b.priority) ∧
    ∃ R, MsrpFp (system (Msrp.exInfo 5)) (fun i => ((Msrp.exInfo 5).get i).priority) R ∧
      UnorderedFp (system (Msrp.exInfo 5)) (fun i => ((Msrp.exInfo 5).get i).priority) R ∧
      (∀ s, R.issued s → R.enter s < R.acquire s → R.acquire s < R.leave s) ∧
      ∃ s, R.issued s ∧ R.enter s < R.acquire s := by
  have hm : MsrpFp (system (Msrp.exInfo 5)) (fun i => ((Msrp.exInfo 5).get i).priority) exRun := by
    have := msrpFp_exRun 5 (fun i => ((Msrp.exInfo 5).get i).priority)
    rw [← system_exInfo] at this
    exact this
  refine ⟨best_maximum, ⟨[4, 2, 2], exMsrp, exBaseline, exUnordered, by decide +kernel, by decide +kernel⟩, by decide,
    by decide, exRun, hm, ⟨hm.toNpSpinFp, ?_⟩, ?_, ?_⟩
  · intro s q t h2 h3 h4 h5 h6
    obtain ⟨s', q', e1, e2, e3, _, e5⟩ := hm.fifo s q t h2 h3 h4 h5 h6
    exact ⟨s', q', e1, e2, e3, e5⟩
  · intro s _ h
    simp only [exRun] at h ⊢
    split_ifs at h ⊢
    · omega
    · omega
  · exact ⟨⟨((1 : Fin 3), 0), 0, 0⟩, ⟨show (1 : Fin 3) ≠ 0 by decide, rfl, rfl, rfl⟩, show 0 < 2 by omega⟩

end Verif.SR.Lp
