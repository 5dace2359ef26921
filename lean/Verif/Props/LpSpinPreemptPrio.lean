/-
C151: the analysis of preemptive priority-ordered spin locks compared with others.
-/
import Verif.Model.LpSpinPreemptPrio
import Verif.Props.LpSpinPreemptExample

namespace Verif.SR.Lp
open Verif.Spec

section
variable {info : Info} {i : ℕ} {ti : TaskInfo} {pr : LockPrio} {fuel : ℕ}

/-- Nothing is removed, and the objective, the integer and the binary variables are the same. -/
structure Extends (P Q : Program) : Prop where
  incl : Included P Q
  objective : Q.objective = P.objective
  integers : Q.integers = P.integers

theorem Extends.refl (P : Program) : Extends P P := ⟨Included.refl P, rfl, rfl⟩

theorem Extends.trans {P Q R : Program} (h : Extends P Q) (h' : Extends Q R) : Extends P R :=
  ⟨h.incl.trans h'.incl, h'.objective.trans h.objective, h'.integers.trans h.integers⟩

theorem extends_addInequality (P : Program) (e : Exp) (b : ℚ) : Extends P (addInequality P e b) := by
  refine ⟨included_addInequality P e b, objective_addInequality P e b, ?_⟩
  unfold addInequality
  split_ifs <;> rfl

theorem extends_foldl {α : Type} {f : Program → α → Program} (hf : ∀ P a, Extends P (f P a)) (l : List α) :
    ∀ P, Extends P (l.foldl f P) := by
  induction l with
  | nil => exact Extends.refl
  | cons a l ih => exact fun P => (hf P a).trans (ih (f P a))

theorem extends_foldlM {α : Type} {f : Program → α → Option Program} (hf : ∀ P a Q, f P a = some Q → Extends P Q)
    (l : List α) : ∀ P Q, l.foldlM f P = some Q → Extends P Q := by
  induction l with
  | nil =>
    intro P Q h
    simp only [List.foldlM_nil, Option.pure_def, Option.some.injEq] at h
    rw [← h]
    exact Extends.refl P
  | cons a l ih =>
    intro P Q h
    rw [List.foldlM_cons] at h
    obtain ⟨R, h1, h2⟩ := Option.bind_eq_some_iff.1 h
    exact (hf P a R h1).trans (ih R Q h2)

theorem extends_higherDirect (q : ℕ) (p : ℕ → Bool) (w : ℕ) (P : Program) :
    Extends P (higherDirectFor pr info ti q p w P) :=
  extends_foldl (fun P c => extends_foldl (fun P t => extends_addInequality P _ _) c P) _ P

theorem extends_preemptPrioDirect {P Q : Program} (h : preemptPrioDirect pr fuel info i ti P = some Q) :
    Extends P Q := by
  refine extends_foldlM (fun P q Q h => ?_) _ P Q h
  obtain ⟨w, _, rfl⟩ := Option.map_eq_some_iff.1 h
  exact extends_higherDirect q _ w P

theorem extends_noRemote (P : Program) : Extends P (noRemoteArrivalConstraints info ti P) :=
  extends_foldl (fun P q => extends_foldl (fun P t => extends_addInequality P _ _) _ P) _ P

theorem extends_preemptPrioLower (P : Program) : Extends P (preemptPrioLower pr info ti P) := by
  refine extends_foldl (fun P q => ?_) _ P
  dsimp only
  split_ifs
  · exact Extends.refl P
  · exact extends_addInequality P _ _

theorem preemptPrioProgram_eq {P : Program} (h : preemptPrioProgram pr fuel info i ti = some P) :
    ∃ Q, P = setObjective info i ti Q ∧ Extends (commonConstraints info i ti {}) Q := by
  unfold preemptPrioProgram at h
  obtain ⟨R, h1, h2⟩ := Option.bind_eq_some_iff.1 h
  simp only [Option.pure_def, Option.some.injEq] at h2
  exact ⟨_, h2.symm, ((extends_noRemote _).trans (extends_preemptPrioDirect h1)).trans (extends_preemptPrioLower R)⟩

end

/-- **C151**, part: with solvers that find optimal solutions, the bound of a task for preemptive priority-ordered spin locks
is at most that for spin locks without any order of the requests. -/
theorem C151_le_baseline_partial (info : Info) (pr : LockPrio) (fuel : ℕ) (s s' : Solver)
    (hs : ∀ P x, s P = some x → P.Maximum x) (hs' : ∀ P x, s' P = some x → P.Maximum x) (bs bs' : List ℕ)
    (h : nativePreemptPrioBounds pr fuel s info = some bs) (h' : baselineBounds s' info = some bs') (i b b' : ℕ)
    (hi : i < info.length) (hb : bs[i]? = some b) (hb' : bs'[i]? = some b') : b ≤ b' := by
  have ht : info[i]? = some info[i] := List.getElem?_eq_getElem hi
  obtain ⟨P, hP, hs1⟩ := Option.bind_eq_some_iff.1 (getElem_bounds h ht hb)
  obtain ⟨Q, rfl, hQ⟩ := preemptPrioProgram_eq hP
  refine solved_le hs hs' (fun x hx => ⟨x, feasible_setObjective ?_, le_of_eq ?_⟩) hs1 (getElem_bounds h' ht hb')
  · have hf := feasible_of_setObjective hx
    exact ⟨fun c hc => hf.eq c (hQ.incl.eq c hc), fun c hc => hf.le c (hQ.incl.le c hc),
      fun k hk => hf.integer k (hQ.incl.integer k hk), fun k hk => hf.binary k (hQ.incl.binary k hk),
      fun k hk => hf.range k (by rwa [hQ.integers])⟩
  · unfold setObjective
    dsimp only
    rw [hQ.objective]

end Verif.SR.Lp
