/-
The demand of a processor under partitioned EDF with preemptable FIFO spin locks: solutions of the linear programs in terms
of numbers of requests and cancellations.
-/
import Verif.Model.LpPedfPreempt
import Verif.Lemmas.LpPedfDem

namespace Verif.SR.Pedf
open Verif.Spec Finset
open Verif.SR.Msrp (system uses_iff)

variable {info : Info} {k t : ℕ} {mode : Mode} {spin canc : Fin info.length → ℕ → ℕ} {a0 : Option (Fin info.length × ℕ)}

/-- The tasks of a processor with deadlines shorter than `d`. -/
def shortTasks (info : Info) (k d : ℕ) : Finset (Fin info.length) :=
  (procTasks info k).filter (fun i => (info.get i).deadline < d)

theorem mem_shortTasks {d : ℕ} {i : Fin info.length} :
    i ∈ shortTasks info k d ↔ (info.get i).cluster = k ∧ (info.get i).deadline < d := by
  unfold shortTasks
  rw [mem_filter, mem_procTasks]

theorem shorterTasks_sum {d : ℕ} (g : TaskInfo → ℕ) :
    ((shorterTasks info k d).map g).sum = ∑ i ∈ shortTasks info k d, g (info.get i) := by
  have := Lp.info_sum (info := info) (fun t : TaskInfo => t.cluster = k ∧ t.deadline < d) g
  unfold shorterTasks localTasks
  rw [List.filter_filter]
  have e : (univ : Finset (Fin info.length)).filter (fun i => (info.get i).cluster = k ∧ (info.get i).deadline < d) =
      shortTasks info k d := by
    ext i
    rw [mem_shortTasks]
    simp
  rw [← e, ← this]
  congr 2
  apply List.filter_congr
  intro t _
  simp [Bool.and_comm]

/-- Numbers of requests of other tasks that delay local tasks by spinning, numbers of requests of local tasks that are
cancelled, and the local task and the resource that cause arrival blocking. -/
structure PSol (info : Info) (mode : Mode) (k t : ℕ) (spin canc : Fin info.length → ℕ → ℕ)
    (a0 : Option (Fin info.length × ℕ)) : Prop where
  joint : ∀ x ∈ otherTasks info k, ∀ q, spin x q ≤ remoteJobs (info.get x) t * Lp.numRequests (info.get x) q
  ac : mode = .ac → a0 = none
  later : ∀ i q, a0 = some (i, q) → (info.get i).cluster = k ∧ t < (info.get i).deadline ∧
    0 < Lp.numRequests (info.get i) q ∧ (system info).Global q
  perProc : ∀ c, c ≠ k → ∀ q, ∑ x ∈ procTasks info c, spin x q ≤
    ∑ i ∈ procTasks info k, localJobs mode (info.get i) t * Lp.numRequests (info.get i) q + ∑ i ∈ procTasks info k, canc i q
  perTask : ∀ i ∈ procTasks info k, ∑ q ∈ (Lp.allResources info).toFinset, canc i q ≤
    (∑ h ∈ shortTasks info k (info.get i).deadline, preemptions (info.get i) (info.get h)) * localJobs mode (info.get i) t
  unused : ∀ i ∈ procTasks info k, ∀ q, Lp.numRequests (info.get i) q = 0 → canc i q = 0
  overall : ∀ i ∈ procTasks info k, ∑ j ∈ (procTasks info k).filter (fun j => (info.get j).deadline ≤ (info.get i).deadline),
    ∑ q ∈ (Lp.allResources info).toFinset, canc j q ≤
    ∑ x ∈ shortTasks info k (info.get i).deadline, Native.divideWithCeil t (info.get x).period

/-- The total delay. -/
def pdelay (info : Info) (k : ℕ) (spin : Fin info.length → ℕ → ℕ) (a0 : Option (Fin info.length × ℕ)) : ℕ :=
  ∑ x ∈ otherTasks info k, ∑ q ∈ (Lp.allResources info).toFinset, requestLength (info.get x) q * spin x q +
    ownLength info a0

/-- Possible demands in an interval of length `t`. -/
def PDemand (info : Info) (k t d : ℕ) : Prop :=
  ∃ spin canc a0, PSol info .pdc k t spin canc a0 ∧ d = dbf info k t + pdelay info k spin a0

/-! ### Feasible assignments -/

/-- The assignment of a solution. -/
noncomputable def passign (info : Info) (k : ℕ) (spin canc : Fin info.length → ℕ → ℕ)
    (a0 : Option (Fin info.length × ℕ)) : Var → ℚ
  | .cancelled i q => if h : i < info.length then (canc ⟨i, h⟩ q : ℚ) else 0
  | .spin i q => assign info k spin (fun _ _ => 0) a0 (.spin i q)
  | .arrival i q => assign info k spin (fun _ _ => 0) a0 (.arrival i q)
  | .enabled q => assign info k spin (fun _ _ => 0) a0 (.enabled q)

open Classical in
theorem passign_spin (i : Fin info.length) (q : ℕ) : passign info k spin canc a0 (.spin i q) =
    if (info.get i).cluster = k then 0 else (spin i q : ℚ) :=
  assign_spin (arr := fun _ _ => 0) (a0 := a0) i q

open Classical in
theorem passign_arrival (i : Fin info.length) (q : ℕ) : passign info k spin canc a0 (.arrival i q) =
    if (info.get i).cluster = k then (if a0 = some (i, q) then 1 else 0) else 0 := by
  show assign info k spin (fun _ _ => 0) a0 (.arrival i q) = _
  rw [assign_arrival]
  split_ifs <;> simp

theorem passign_cancelled (i : Fin info.length) (q : ℕ) : passign info k spin canc a0 (.cancelled i q) = canc i q := by
  unfold passign
  simp only
  rw [dif_pos i.2]

theorem PSol.common (h : PSol info mode k t spin canc a0) (h1 : Lp.OneEntry info) :
    (commonProgram info mode k t).Feasible (passign info k spin canc a0) := by
  classical
  have hen : ∀ i q, a0 = some (i, q) → passign info k spin canc a0 (.enabled q) = 1 := fun i q ha => if_pos ⟨i, ha⟩
  have hen0 : ∀ q, (∀ i, a0 ≠ some (i, q)) → passign info k spin canc a0 (.enabled q) = 0 := fun q ha =>
    if_neg (fun ⟨i, hi⟩ => ha i hi)
  have hen2 : ∀ q, passign info k spin canc a0 (.enabled q) = 0 ∨ passign info k spin canc a0 (.enabled q) = 1 := by
    intro q
    by_cases ha : ∃ i, a0 = some (i, q)
    · exact Or.inr (if_pos ha)
    · exact Or.inl (if_neg ha)
  have e0 : 0 ≤ arrivals mode := by cases mode <;> simp [arrivals]
  unfold commonProgram
  rw [feas_setObjective, feas_excludeLocal, feas_oneLocalRequest, feas_noRequests, feas_atMostArrival e0, feas_jointBound,
    feas_noLocalSpin, feas_noArrivalInside]
  refine ⟨⟨⟨⟨⟨⟨⟨⟨⟨feas_empty, ?_⟩, ?_⟩, ?_⟩, fun q _ => hen2 q⟩, ?_⟩, ?_⟩, ?_⟩, ?_⟩, ?_⟩
  · intro i hi r hr
    obtain ⟨hi, hd⟩ := List.mem_filter.1 hi
    obtain ⟨j, hj, rfl⟩ := mem_localIds.1 hi
    simp only [decide_eq_true_eq] at hd
    simp only
    rw [passign_arrival, if_pos (mem_procTasks.1 hj)]
    rw [if_neg]
    intro ha
    have := (h.later _ _ ha).2.1
    omega
  · rw [localIds_sum]
    apply le_of_eq
    apply sum_eq_zero
    intro i hi
    apply List.sum_eq_zero
    intro y hy
    obtain ⟨r, _, rfl⟩ := List.mem_map.1 hy
    rw [passign_spin, if_pos (mem_procTasks.1 hi)]
  · intro i hi r hr
    obtain ⟨j, hj, rfl⟩ := mem_remoteIds.1 hi
    simp only at hr ⊢
    rw [passign_arrival, passign_spin, if_neg (mem_otherTasks.1 hj), if_neg (mem_otherTasks.1 hj)]
    have := h.joint j hj r.resId
    rw [h1.num hr] at this
    rw [zero_add]
    exact_mod_cast this
  · cases hm : mode
    · have := h.ac hm
      have e : ((Lp.allResources info).map (fun q => passign info k spin canc a0 (.enabled q))).sum = 0 := by
        apply List.sum_eq_zero
        intro y hy
        obtain ⟨q, _, rfl⟩ := List.mem_map.1 hy
        exact hen0 q (fun i hi => by rw [this] at hi; cases hi)
      rw [e]
      exact le_rfl
    · exact enabled_le (k := k) (spin := spin) (arr := fun _ _ => 0) _ (List.nodup_dedup _)
  · intro q hq
    refine ⟨hen2 q, ?_⟩
    by_cases ha : ∃ i, a0 = some (i, q)
    · obtain ⟨i, ha⟩ := ha
      rw [hen i q ha]
      obtain ⟨l1, l2, l3, _⟩ := h.later i q ha
      have : 1 ≤ laterRequests info k t q := by
        unfold laterRequests
        refine le_trans l3 (List.single_le_sum (fun _ _ => Nat.zero_le _) _ ?_)
        refine List.mem_map.2 ⟨info.get i, ?_, rfl⟩
        refine List.mem_filter.2 ⟨List.mem_filter.2 ⟨List.get_mem _ _, by simpa using l1⟩, by simpa using l2⟩
      exact_mod_cast this
    · rw [hen0 q (fun i hi => ha ⟨i, hi⟩)]
      exact Nat.cast_nonneg _
  · intro q hq
    rw [localIds_sum]
    have e : ∀ i ∈ procTasks info k, passign info k spin canc a0 (.arrival i q) = if a0 = some (i, q) then 1 else 0 := by
      intro i hi
      rw [passign_arrival, if_pos (mem_procTasks.1 hi)]
    rw [sum_congr rfl e]
    by_cases ha : ∃ i, a0 = some (i, q)
    · obtain ⟨i, ha⟩ := ha
      rw [hen i q ha, sum_boole]
      have : ((procTasks info k).filter (fun i => a0 = some (i, q))).card ≤ 1 := by
        rw [card_le_one]
        intro a ha b hb
        have e1 := (mem_filter.1 ha).2
        have e2 := (mem_filter.1 hb).2
        rw [e1] at e2
        cases e2
        rfl
      exact_mod_cast this
    · rw [hen0 q (fun i hi => ha ⟨i, hi⟩)]
      apply le_of_eq
      apply sum_eq_zero
      intro i _
      exact if_neg (fun hi => ha ⟨i, hi⟩)
  · apply le_of_eq
    apply List.sum_eq_zero
    intro y hy
    obtain ⟨q, hq, rfl⟩ := List.mem_map.1 hy
    apply hen0
    intro i hi
    obtain ⟨_, _, l3, l4⟩ := h.later i q hi
    exact (Msrp.mem_localResources (num_ne_zero l3)).1 (List.mem_filter.1 hq).1 l4
  · intro i hi q hq
    obtain ⟨j, rfl⟩ := Lp.mem_tasks.1 hi
    simp only
    rw [passign_arrival, passign_spin]
    constructor
    · split_ifs
      · exact zero_le_one
      · exact le_rfl
      · exact le_rfl
    · split_ifs
      · exact le_rfl
      · exact Nat.cast_nonneg _

theorem foldl_feasible {V α : Type} {x : V → ℚ} {f : MixedProgram V → α → MixedProgram V} (l : List α) :
    (∀ a ∈ l, ∀ lp, lp.Feasible x → (f lp a).Feasible x) → ∀ lp, lp.Feasible x → (l.foldl f lp).Feasible x := by
  induction l with
  | nil => intro _ lp h; exact h
  | cons a l ih =>
    intro hf lp h
    exact ih (fun b hb => hf b (List.mem_cons_of_mem _ hb)) _ (hf a List.mem_cons_self _ h)

theorem add_feasible {V : Type} {x : V → ℚ} {lp : MixedProgram V} {e : List (ℚ × V)} {b : ℚ} (h : lp.Feasible x)
    (hb : valueOf x e ≤ b) : (addInequality lp e b).Feasible x := by
  unfold addInequality
  split_ifs
  · exact h
  · refine ⟨fun c hc => ?_, h.nonneg, h.binary, h.integer⟩
    rcases List.mem_append.1 hc with hc | hc
    · exact h.le c hc
    · rw [List.mem_singleton.1 hc]
      exact hb

theorem objective_fifo {lb ub : ℕ} {relax : Bool} :
    (fifoPreemptProgram info mode k t lb ub relax).objective = (commonProgram info mode k t).objective := by
  unfold fifoPreemptProgram
  have e : ∀ lp : Program, (blockingRange (blockingTerms info) lb ub lp).objective = lp.objective := by
    intro lp
    unfold blockingRange
    simp only
    split_ifs <;> simp only [objective_add]
  rw [e]
  unfold oneSpinOrCancellation maxPreemptions maxCancellations noTransitiveArrival
  rw [objective_foldl (fun lp q => objective_foldl (fun lp q => objective_add _ _) _ _),
    objective_foldl (fun lp q => objective_add _ _), objective_add, objective_foldl (fun lp q => by rw [objective_add]),
    objective_add]

theorem objective_terms : (commonProgram info mode k t).objective = blockingTerms info := objective_common

theorem PSol.value (h : PSol info mode k t spin canc a0) :
    valueOf (passign info k spin canc a0) (blockingTerms info) = (pdelay info k spin a0 : ℚ) := by
  classical
  unfold blockingTerms
  rw [valueOf_flatMap]
  have e0 : ∀ i : ℕ × TaskInfo, valueOf (passign info k spin canc a0) ((Lp.allResources info).flatMap (fun q =>
      if requestLength i.2 q > 0 then
        [((requestLength i.2 q : ℚ), .spin i.1 q), ((requestLength i.2 q : ℚ), .arrival i.1 q)] else [])) =
      ((Lp.allResources info).map (fun q => (requestLength i.2 q : ℚ) *
        (passign info k spin canc a0 (.spin i.1 q) + passign info k spin canc a0 (.arrival i.1 q)))).sum := by
    intro i
    rw [valueOf_flatMap]
    congr 1
    apply List.map_congr_left
    intro q _
    split_ifs with h
    · rw [valueOf_cons, valueOf_cons, valueOf_nil]
      ring
    · have : requestLength i.2 q = 0 := by omega
      rw [this, valueOf_nil]
      simp
  simp only [e0]
  have e1 := Lp.tasks_sum (info := info) (fun _ => True) (fun i => ((Lp.allResources info).map (fun q =>
      (requestLength i.2 q : ℚ) * (passign info k spin canc a0 (.spin i.1 q) +
        passign info k spin canc a0 (.arrival i.1 q)))).sum)
  simp only [decide_true, List.filter_true, Finset.filter_true] at e1
  rw [e1]
  simp only [resources_sum]
  have hsplit : (univ : Finset (Fin info.length)) = otherTasks info k ∪ procTasks info k := by
    ext i
    simp [otherTasks, procTasks, em']
  have hdis : Disjoint (otherTasks info k) (procTasks info k) := by
    rw [disjoint_left]
    intro i h2 h3
    exact (mem_otherTasks.1 h2) (mem_procTasks.1 h3)
  rw [hsplit, sum_union hdis]
  unfold pdelay
  push_cast
  congr 1
  · apply sum_congr rfl
    intro i hi
    apply sum_congr rfl
    intro q _
    rw [passign_spin, passign_arrival, if_neg (mem_otherTasks.1 hi), if_neg (mem_otherTasks.1 hi), add_zero]
  · have e2 : ∀ i ∈ procTasks info k, ∀ q ∈ (Lp.allResources info).toFinset, (requestLength (info.get i) q : ℚ) *
        (passign info k spin canc a0 (.spin i q) + passign info k spin canc a0 (.arrival i q)) =
        if a0 = some (i, q) then (requestLength (info.get i) q : ℚ) else 0 := by
      intro i hi q _
      rw [passign_spin, passign_arrival, if_pos (mem_procTasks.1 hi), if_pos (mem_procTasks.1 hi)]
      split_ifs <;> simp
    rw [sum_congr rfl (fun i hi => sum_congr rfl (e2 i hi))]
    cases ha : a0 with
    | none => simp [ownLength]
    | some p =>
      obtain ⟨i0, q0⟩ := p
      obtain ⟨l1, _, l3, _⟩ := h.later i0 q0 ha
      rw [sum_eq_single_of_mem i0 (mem_procTasks.2 l1)]
      · rw [sum_eq_single_of_mem q0]
        · rw [if_pos rfl]
          rfl
        · rw [List.mem_toFinset, Lp.mem_allResources]
          exact ⟨i0, num_ne_zero l3⟩
        · intro q _ hne
          rw [if_neg]
          intro he
          cases he
          exact hne rfl
      · intro i _ hne
        apply sum_eq_zero
        intro q _
        rw [if_neg]
        intro he
        cases he
        exact hne rfl

theorem valueOf_neg {V : Type} {x : V → ℚ} (l : List (ℚ × V)) :
    valueOf x (l.map (fun t => (-t.1, t.2))) = -valueOf x l := by
  induction l with
  | nil => simp [valueOf_nil]
  | cons a l ih =>
    rw [List.map_cons, valueOf_cons, ih]
    show _ = -valueOf x ((a.1, a.2) :: l)
    rw [valueOf_cons]
    ring

/-- Solutions satisfy the constraints, unless they exceed the upper bound. -/
theorem PSol.feasible (h : PSol info mode k t spin canc a0) (h1 : Lp.OneEntry info) {lb ub : ℕ} {relax : Bool}
    (hub : ub = 0 ∨ pdelay info k spin a0 ≤ ub) :
    (fifoPreemptProgram info mode k t lb ub relax).Feasible (passign info k spin canc a0) := by
  classical
  have hv := h.value
  have hcanc : ∀ i ∈ localIds info k, ((Lp.allResources info).map (fun q =>
      passign info k spin canc a0 (.cancelled i.1 q))).sum = ((∑ q ∈ (Lp.allResources info).toFinset,
        if hi : i.1 < info.length then canc ⟨i.1, hi⟩ q else 0 : ℕ) : ℚ) := by
    intro i hi
    obtain ⟨j, hj, rfl⟩ := mem_localIds.1 hi
    rw [resources_sum]
    push_cast
    apply sum_congr rfl
    intro q _
    rw [passign_cancelled, dif_pos j.2]
  unfold fifoPreemptProgram blockingRange
  simp only
  have hrest : (addInequality (oneSpinOrCancellation info mode k t (maxPreemptions info k t
      (maxCancellations info mode k t relax (noTransitiveArrival info k (commonProgram info mode k t)))))
      ((blockingTerms info).map (fun t => (-t.1, t.2))) (-lowerBound lb)).Feasible (passign info k spin canc a0) := by
    refine add_feasible ?_ ?_
    · refine foldl_feasible _ (fun c hc lp hlp => foldl_feasible _ (fun q hq lp hlp => add_feasible hlp ?_) lp hlp) _ ?_
      · have hck : c ≠ k := by simpa using (List.mem_filter.1 hc).2
        rw [valueOf_append, valueOf_map, localIds_sum, localTasks_sum]
        have e : ∀ i ∈ procTasks info c, passign info k spin canc a0 (.spin i q) = (spin i q : ℚ) := by
          intro i hi
          rw [passign_spin, if_neg]
          rw [mem_procTasks.1 hi]
          exact hck
        rw [sum_congr rfl e]
        have e2 : valueOf (passign info k spin canc a0) ((localIds info k).map (fun i => (-1, Var.cancelled i.1 q))) =
            -((∑ i ∈ procTasks info k, canc i q : ℕ) : ℚ) := by
          have e3 : (localIds info k).map (fun i => ((-1 : ℚ), Var.cancelled i.1 q)) =
              ((localIds info k).map (fun i => ((1 : ℚ), Var.cancelled i.1 q))).map (fun t => (-t.1, t.2)) := by
            rw [List.map_map]
            rfl
          rw [e3, valueOf_neg, valueOf_map, localIds_sum]
          push_cast
          congr 1
          apply sum_congr rfl
          intro i _
          rw [passign_cancelled]
        rw [e2]
        have := h.perProc c hck q
        have : ((∑ x ∈ procTasks info c, spin x q : ℕ) : ℚ) ≤
            ((∑ i ∈ procTasks info k, localJobs mode (info.get i) t * Lp.numRequests (info.get i) q : ℕ) : ℚ) +
            ((∑ i ∈ procTasks info k, canc i q : ℕ) : ℚ) := by exact_mod_cast this
        rw [Nat.cast_sum] at this
        linarith
      · refine foldl_feasible _ (fun i hi lp hlp => add_feasible hlp ?_) _ ?_
        · obtain ⟨j, hj, rfl⟩ := mem_localIds.1 hi
          rw [valueOf_flatMap, shorterTasks_sum]
          simp only [valueOf_map]
          have e := Lp.tasks_sum (info := info) (fun t : ℕ × TaskInfo => t.2.cluster = k ∧
            t.2.deadline ≤ (info.get j).deadline) (fun i => ((Lp.allResources info).map (fun q =>
              passign info k spin canc a0 (.cancelled i.1 q))).sum)
          have e2 : (localIds info k).filter (fun j' => j'.2.deadline ≤ (info.get j).deadline) = (Lp.tasks info).filter
              (fun t => decide (t.2.cluster = k ∧ t.2.deadline ≤ (info.get j).deadline)) := by
            unfold localIds
            rw [List.filter_filter]
            apply List.filter_congr
            intro t _
            simp [Bool.and_comm]
          rw [e2, e]
          have e3 : (univ : Finset (Fin info.length)).filter (fun i => (info.get i).cluster = k ∧
              (info.get i).deadline ≤ (info.get j).deadline) = (procTasks info k).filter (fun i =>
                (info.get i).deadline ≤ (info.get j).deadline) := by
            ext i
            rw [mem_filter, mem_filter, mem_procTasks]
            simp
          simp only
          rw [e3]
          have := h.overall j hj
          refine le_trans (le_of_eq ?_) (Nat.cast_le.2 this)
          push_cast
          apply sum_congr rfl
          intro i _
          rw [resources_sum]
          apply sum_congr rfl
          intro q _
          rw [passign_cancelled]
        · refine add_feasible ?_ ?_
          · refine foldl_feasible _ (fun i hi lp hlp => add_feasible ?_ ?_) _ ?_
            · obtain ⟨j, hj, rfl⟩ := mem_localIds.1 hi
              refine ⟨hlp.le, fun v hv => ?_, hlp.binary, fun v hv => ?_⟩
              · rcases List.mem_append.1 hv with hv | hv
                · obtain ⟨q, _, rfl⟩ := List.mem_map.1 hv
                  rw [passign_cancelled]
                  exact Nat.cast_nonneg _
                · exact hlp.nonneg v hv
              · have hv : v ∈ (Lp.allResources info).map (fun q => Var.cancelled j q) ++ lp.integers := by
                  by_cases hr : relax = true
                  · simp only [hr, if_true] at hv
                    exact List.mem_append_right _ hv
                  · simp only [hr] at hv
                    exact hv
                rcases List.mem_append.1 hv with hv | hv
                · obtain ⟨q, _, rfl⟩ := List.mem_map.1 hv
                  rw [passign_cancelled]
                  exact ⟨(canc j q : ℤ), by push_cast; rfl⟩
                · exact hlp.integer v hv
            · obtain ⟨j, hj, rfl⟩ := mem_localIds.1 hi
              rw [List.map_map, shorterTasks_sum]
              have e := valueOf_map (x := passign info k spin canc a0) (Lp.allResources info) (fun q => Var.cancelled j q)
              refine le_trans (le_of_eq e) ?_
              rw [hcanc _ hi]
              simp only [dif_pos j.2]
              exact Nat.cast_le.2 (h.perTask j hj)
            · refine add_feasible (h.common h1) ?_
              rw [valueOf_flatMap]
              apply le_of_eq
              apply List.sum_eq_zero
              intro y hy
              obtain ⟨i, hi, rfl⟩ := List.mem_map.1 hy
              obtain ⟨j, hj, rfl⟩ := mem_remoteIds.1 hi
              rw [valueOf_map]
              apply List.sum_eq_zero
              intro y hy
              obtain ⟨q, _, rfl⟩ := List.mem_map.1 hy
              rw [passign_arrival, if_neg (mem_otherTasks.1 hj)]
          · rw [valueOf_flatMap]
            apply le_of_eq
            apply List.sum_eq_zero
            intro y hy
            obtain ⟨i, hi, rfl⟩ := List.mem_map.1 hy
            obtain ⟨j, hj, rfl⟩ := mem_localIds.1 hi
            rw [valueOf_map]
            apply List.sum_eq_zero
            intro y hy
            obtain ⟨q, hq, rfl⟩ := List.mem_map.1 hy
            rw [passign_cancelled, h.unused j hj q (by simpa using (List.mem_filter.1 hq).2)]
            rfl
    · rw [valueOf_neg, hv]
      unfold lowerBound
      have : (0 : ℚ) ≤ (pdelay info k spin a0 : ℚ) := Nat.cast_nonneg _
      split_ifs <;> linarith
  by_cases hu : ub > 0
  · rw [if_pos hu]
    refine add_feasible hrest ?_
    rw [hv]
    have := hub.resolve_left (by omega)
    exact_mod_cast this
  · rw [if_neg hu]
    exact hrest

/-- The bound covers the delay of all solutions. -/
theorem PSol.le_solved (h : PSol info mode k t spin canc a0) (h1 : Lp.OneEntry info) {solve : Solver}
    (hs : ∀ P x, solve P = some x → P.Maximum x) {lb ub b : ℕ} {relax : Bool}
    (hub : ub = 0 ∨ pdelay info k spin a0 ≤ ub)
    (hb : solved solve (fifoPreemptProgram info mode k t lb ub relax) = some b) : pdelay info k spin a0 ≤ b := by
  unfold solved at hb
  obtain ⟨x, hx, rfl⟩ := Option.map_eq_some_iff.1 hb
  have := (hs _ _ hx).best _ (h.feasible h1 hub)
  have e : valueOf (passign info k spin canc a0) (fifoPreemptProgram info mode k t lb ub relax).objective =
      (pdelay info k spin a0 : ℚ) := by
    rw [objective_fifo, objective_terms, h.value]
  rw [e] at this
  have h2 : ((pdelay info k spin a0 : ℕ) : ℤ) ≤
      ⌊valueOf x (fifoPreemptProgram info mode k t lb ub relax).objective⌋ := by
    rw [Int.le_floor]
    exact_mod_cast this
  omega

/-! ### Longer intervals -/

variable (hu : Usual info)
include hu

/-- In a longer interval there are demands that are no smaller. -/
theorem PDemand.mono {t t' d : ℕ} (h : PDemand info k t d) (ht : t ≤ t') : ∃ d', d ≤ d' ∧ PDemand info k t' d' := by
  classical
  obtain ⟨spin, canc, a0, hs, rfl⟩ := h
  have hdbf : dbf info k t ≤ dbf info k t' := by
    rw [dbf_eq, dbf_eq]
    exact sum_le_sum (fun i _ => Nat.mul_le_mul_right _ (pdcJobs_mono hu ht))
  have hrest : ∀ a1, (∀ i q, a1 = some (i, q) → (info.get i).cluster = k ∧ t' < (info.get i).deadline ∧
      0 < Lp.numRequests (info.get i) q ∧ (system info).Global q) → PSol info .pdc k t' spin canc a1 := by
    intro a1 ha1
    exact
      { joint := fun x hx q => (hs.joint x hx q).trans (Nat.mul_le_mul_right _ (remoteJobs_mono hu ht))
        ac := fun hm => by cases hm
        later := ha1
        perProc := fun c hc q => (hs.perProc c hc q).trans (Nat.add_le_add_right
          (sum_le_sum (fun i _ => Nat.mul_le_mul_right _ (pdcJobs_mono hu ht))) _)
        perTask := fun i hi => (hs.perTask i hi).trans (Nat.mul_le_mul_left _ (pdcJobs_mono hu ht))
        unused := hs.unused
        overall := fun i hi => (hs.overall i hi).trans (sum_le_sum (fun x _ => by
          have hT := hu.period (List.get_mem info x)
          rw [dwc_eq _ hT, dwc_eq _ hT]
          exact cdiv_mono hT ht)) }
  by_cases hkeep : ∀ i q, a0 = some (i, q) → t' < (info.get i).deadline
  · refine ⟨dbf info k t' + pdelay info k spin a0, by omega, spin, canc, a0, hrest a0 ?_, rfl⟩
    intro i q ha
    obtain ⟨l1, _, l3⟩ := hs.later i q ha
    exact ⟨l1, hkeep i q ha, l3⟩
  · push Not at hkeep
    obtain ⟨i0, q0, ha, hd⟩ := hkeep
    obtain ⟨l1, l2, l3, _⟩ := hs.later i0 q0 ha
    have hdbf' : dbf info k t + (info.get i0).cost ≤ dbf info k t' := by
      rw [dbf_eq, dbf_eq]
      rw [← add_sum_erase _ _ (mem_procTasks.2 l1), ← add_sum_erase _ _ (mem_procTasks.2 l1)]
      have e1 : ∑ i ∈ (procTasks info k).erase i0, pdcJobs (info.get i) t * (info.get i).cost ≤
          ∑ i ∈ (procTasks info k).erase i0, pdcJobs (info.get i) t' * (info.get i).cost :=
        sum_le_sum (fun i _ => Nat.mul_le_mul_right _ (pdcJobs_mono hu ht))
      have e2 := Nat.mul_le_mul_right (info.get i0).cost (pdcJobs_new hu l2 hd)
      rw [Nat.add_mul, Nat.one_mul] at e2
      omega
    refine ⟨dbf info k t' + pdelay info k spin none, ?_, spin, canc, none, hrest none (fun i q hc => by cases hc), rfl⟩
    unfold pdelay
    rw [ha]
    simp only [ownLength]
    have := requestLength_le hu i0 q0
    omega

/-- Between check points the demands are the same. -/
theorem PDemand.step {p t d : ℕ} (h : PDemand info k t d) (h0 : 0 < lastCheckPointBefore info k p)
    (h1 : lastCheckPointBefore info k p ≤ t) (h2 : t < p) : PDemand info k (lastCheckPointBefore info k p) d := by
  obtain ⟨spin, canc, a0, hs, rfl⟩ := h
  have hloc : ∀ i ∈ procTasks info k, pdcJobs (info.get i) t = pdcJobs (info.get i) (lastCheckPointBefore info k p) ∧
      ((info.get i).deadline ≤ t ↔ (info.get i).deadline ≤ lastCheckPointBefore info k p) := fun i hi =>
    local_const (hu.deadline _ (List.get_mem info i)) (hu.constrained _ (List.get_mem info i)) (List.get_mem info i)
      (mem_procTasks.1 hi) h1 h2
  have hrem : ∀ x ∈ otherTasks info k, remoteJobs (info.get x) t = remoteJobs (info.get x) (lastCheckPointBefore info k p) :=
    fun x hx => remote_const (hu.deadline _ (List.get_mem info x)) (hu.constrained _ (List.get_mem info x))
      (hu.small _ (List.get_mem info x)) (List.get_mem info x) (mem_otherTasks.1 hx) h1 h2
  refine ⟨spin, canc, a0, ?_, ?_⟩
  · exact
      { joint := fun x hx q => by
          rw [← hrem x hx]
          exact hs.joint x hx q
        ac := hs.ac
        later := fun i q ha => by
          obtain ⟨l1, l2, l3⟩ := hs.later i q ha
          refine ⟨l1, ?_, l3⟩
          have := (hloc i (mem_procTasks.2 l1)).2
          omega
        perProc := fun c hc q => by
          refine (hs.perProc c hc q).trans (le_of_eq ?_)
          congr 1
          apply sum_congr rfl
          intro i hi
          show pdcJobs _ _ * _ = pdcJobs _ _ * _
          rw [(hloc i hi).1]
        perTask := fun i hi => by
          refine (hs.perTask i hi).trans (le_of_eq ?_)
          show _ * pdcJobs _ _ = _ * pdcJobs _ _
          rw [(hloc i hi).1]
        unused := hs.unused
        overall := fun i hi => by
          refine (hs.overall i hi).trans (le_of_eq ?_)
          apply sum_congr rfl
          intro x hx
          have hT := hu.period (List.get_mem info x)
          rw [dwc_eq _ hT, dwc_eq _ hT]
          exact release_const (hu.deadline _ (List.get_mem info x)) (hu.constrained _ (List.get_mem info x))
            (List.get_mem info x) (mem_shortTasks.1 hx).1 h0 h1 h2 }
  · congr 1
    rw [dbf_eq, dbf_eq]
    apply sum_congr rfl
    intro i hi
    rw [(hloc i hi).1]

theorem pdemandOk {solve : Solver} (hs : ∀ P x, solve P = some x → P.Maximum x) {i : Fin info.length}
    (hi : (info.get i).cluster = k) (hmin : 0 < minDeadline info k) :
    DemandOk info k (fifoPreemptBlocking solve info k) (PDemand info k) where
  mono _ _ _ h ht := h.mono hu ht
  pdc t x d hb h := by
    obtain ⟨spin, canc, a0, hsol, rfl⟩ := h
    have := hsol.le_solved hu.one hs (Or.inl rfl) hb
    omega
  tighter t x lb y d hb hy h := by
    obtain ⟨spin, canc, a0, hsol, rfl⟩ := h
    have := hsol.le_solved hu.one hs (Or.inl rfl) hb
    have := hsol.le_solved hu.one hs (Or.inr this) hy
    omega
  step p t d h0 h1 h2 h := by
    have := minDeadline_le_last (List.get_mem info i) hi h0
    exact h.step hu (by omega) h1 h2
  first p hp := minDeadline_le_last (List.get_mem info i) hi hp

/-- What the test has checked if it accepts. -/
theorem paccepted {solve : Solver} (hs : ∀ P x, solve P = some x → P.Maximum x) {i : Fin info.length}
    (hi : (info.get i).cluster = k) {fuel : ℕ}
    (h : isSchedulable fuel info k (fifoPreemptBlocking solve info k) = some true) :
    ∃ L, 0 < L ∧ (∀ spin canc, PSol info .ac k L spin canc none → arrivalCurve info k L + pdelay info k spin none ≤ L) ∧
      ∀ t d, (∃ j : Fin info.length, (info.get j).cluster = k ∧ (info.get j).deadline ≤ t) → t < L → PDemand info k t d →
        d ≤ t := by
  have hac : ∀ l, 0 < l → 0 < arrivalCurve info k l := by
    intro l hl
    rw [arrivalCurve_eq]
    refine lt_of_lt_of_le ?_ (single_le_sum (fun _ _ => Nat.zero_le _) (mem_procTasks.2 hi))
    apply Nat.mul_pos _ (hu.cost _ (List.get_mem info i))
    unfold acJobs
    have hT := hu.period (List.get_mem info i)
    rw [dwc_eq _ hT]
    by_contra hc
    have := (cdiv_le_iff (a := l) (k := 0) hT).1 (by omega)
    omega
  have hmin : 0 < minDeadline info k := by
    obtain ⟨s, hs1, _, hs3⟩ := minDeadline_mem (List.get_mem info i) hi
    rw [← hs3]
    exact hu.deadline s hs1
  obtain ⟨L, x, _, h1, h2, h3, h4⟩ := (pdemandOk hu hs hi hmin).isSchedulable hac hmin h
  refine ⟨L, h1, ?_, ?_⟩
  · intro spin canc hsol
    have := hsol.le_solved hu.one hs (Or.inl rfl) h2
    omega
  · rintro t d ⟨j, hj1, hj2⟩ ht hd
    exact h4 t d ((minDeadline_le (List.get_mem info j) hj1).trans hj2) ht hd

end Verif.SR.Pedf
