/-
C149: how the bounds for preemptive FIFO spin locks (`lp_pfp_preemptive_fifo_spinlock_bounds`) relate to those for other
spin locks.  C150: whether they depend on the linear solver.
-/
import Verif.Model.LpSpinPreempt
import Verif.Props.LpSpin
import Verif.Props.LpBackend

namespace Verif.SR.Lp
open Verif.Spec

/-! ### Constraints are only added -/

/-- All constraints and declarations of a program occur in another one. -/
structure Included (P Q : Program) : Prop where
  eq : ∀ c ∈ P.equalities, c ∈ Q.equalities
  le : ∀ c ∈ P.inequalities, c ∈ Q.inequalities
  integer : ∀ v ∈ P.integers, v ∈ Q.integers
  binary : ∀ v ∈ P.binaries, v ∈ Q.binaries

theorem Included.refl (P : Program) : Included P P := ⟨fun _ h => h, fun _ h => h, fun _ h => h, fun _ h => h⟩

theorem Included.trans {P Q R : Program} (h : Included P Q) (h' : Included Q R) : Included P R :=
  ⟨fun c hc => h'.eq c (h.eq c hc), fun c hc => h'.le c (h.le c hc), fun v hv => h'.integer v (h.integer v hv),
    fun v hv => h'.binary v (h.binary v hv)⟩

theorem included_addInequality (P : Program) (e : Exp) (b : ℚ) : Included P (addInequality P e b) := by
  unfold addInequality
  split_ifs
  · exact Included.refl P
  · exact ⟨fun _ h => h, fun _ h => List.mem_append_left _ h, fun _ h => h, fun _ h => h⟩

theorem included_declareInteger (P : Program) (k : Key) : Included P (declareInteger P k) :=
  ⟨fun _ h => h, fun _ h => h, fun _ h => List.mem_cons_of_mem _ h, fun _ h => h⟩

theorem included_foldl {α : Type} {f : Program → α → Program} (hf : ∀ P a, Included P (f P a)) (l : List α) :
    ∀ P, Included P (l.foldl f P) := by
  induction l with
  | nil => exact fun P => Included.refl P
  | cons a l ih => exact fun P => (hf P a).trans (ih _)

theorem mem_foldl {α : Type} {f : Program → α → Program} (hf : ∀ P a, Included P (f P a)) {l : List α} {a : α}
    (ha : a ∈ l) {c : Exp × ℚ} (hc : ∀ P, c ∈ (f P a).inequalities) : ∀ P, c ∈ (l.foldl f P).inequalities := by
  induction l with
  | nil => cases ha
  | cons b l ih =>
    intro P
    rcases List.mem_cons.1 ha with rfl | ha
    · exact (included_foldl hf l _).le c (hc P)
    · exact ih ha _

theorem integer_foldl {α : Type} {f : Program → α → Program} (hf : ∀ P a, Included P (f P a)) {l : List α} {a : α}
    (ha : a ∈ l) {v : Key} (hc : ∀ P, v ∈ (f P a).integers) : ∀ P, v ∈ (l.foldl f P).integers := by
  induction l with
  | nil => cases ha
  | cons b l ih =>
    intro P
    rcases List.mem_cons.1 ha with rfl | ha
    · exact (included_foldl hf l _).integer v (hc P)
    · exact ih ha _

theorem binary_foldl {α : Type} {f : Program → α → Program} (hf : ∀ P a, Included P (f P a)) {l : List α} {a : α}
    (ha : a ∈ l) {v : Key} (hc : ∀ P, v ∈ (f P a).binaries) : ∀ P, v ∈ (l.foldl f P).binaries := by
  induction l with
  | nil => cases ha
  | cons b l ih =>
    intro P
    rcases List.mem_cons.1 ha with rfl | ha
    · exact (included_foldl hf l _).binary v (hc P)
    · exact ih ha _

theorem included_addEquality (P : Program) (e : Exp) (b : ℚ) : Included P (addEquality P e b) := by
  unfold addEquality
  split_ifs
  · exact Included.refl P
  · exact ⟨fun _ h => List.mem_append_left _ h, fun _ h => h, fun _ h => h, fun _ h => h⟩

/-- The choices of the resource of an arrival are binary variables. -/
theorem binary_common {info : Info} {i q : ℕ} {ti : TaskInfo} (hq : q ∈ allResources info) :
    arrivalEnabled q ∈ (commonConstraints info i ti {}).binaries := by
  unfold commonConstraints contentionConstraints localArrivalConstraints noLocalDirectConstraints
    noHigherArrivalConstraints
  refine (included_foldl (fun P a => ?_) _ _).binary _ ((included_foldl (fun P a => included_addInequality P _ _) _ _).binary _
    ((included_addEquality _ _ _).binary _ ((included_foldl (fun P a => ?_) _ _).binary _
      ((included_addInequality _ _ _).binary _ (binary_foldl (fun P a => ?_) hq (fun P => List.mem_cons_self) _)))))
  · split_ifs
    · exact included_foldl (fun P a => included_addInequality P _ _) _ P
    · exact Included.refl P
  · split_ifs
    · exact included_addInequality P _ _
    · exact Included.refl P
  · exact ⟨fun _ h => h, fun _ h => h, fun _ h => h, fun _ h => List.mem_cons_of_mem _ h⟩

theorem mem_addInequality (P : Program) {e : Exp} (b : ℚ) (he : e ≠ []) : (e, b) ∈ (addInequality P e b).inequalities := by
  unfold addInequality
  rw [if_neg (by simpa using he)]
  simp

/-! ### Programs without numbers of preemptions -/

/-- No variable of an expression is a number of preemptions. -/
def CleanExp (e : Exp) : Prop := ∀ t ∈ e, t.2.ty ≠ .other

/-- No variable of a program is a number of preemptions, and there are no integer variables. -/
structure Clean (P : Program) : Prop where
  eq : ∀ c ∈ P.equalities, CleanExp c.1
  le : ∀ c ∈ P.inequalities, CleanExp c.1
  integer : P.integers = []
  binary : ∀ v ∈ P.binaries, v.ty ≠ .other

theorem Clean.add {P : Program} (h : Clean P) {e : Exp} {b : ℚ} (he : CleanExp e) : Clean (addInequality P e b) := by
  unfold addInequality
  split_ifs
  · exact h
  · refine ⟨h.eq, fun c hc => ?_, h.integer, h.binary⟩
    rcases List.mem_append.1 hc with hc | hc
    · exact h.le c hc
    · rw [List.mem_singleton.1 hc]; exact he

theorem Clean.addEq {P : Program} (h : Clean P) {e : Exp} {b : ℚ} (he : CleanExp e) : Clean (addEquality P e b) := by
  unfold addEquality
  split_ifs
  · exact h
  · refine ⟨fun c hc => ?_, h.le, h.integer, h.binary⟩
    rcases List.mem_append.1 hc with hc | hc
    · exact h.eq c hc
    · rw [List.mem_singleton.1 hc]; exact he

theorem Clean.declare {P : Program} (h : Clean P) {k : Key} (hk : k.ty ≠ .other) : Clean (declareBinary P k) := by
  refine ⟨h.eq, h.le, h.integer, fun v hv => ?_⟩
  rcases List.mem_cons.1 hv with rfl | hv
  · exact hk
  · exact h.binary v hv

theorem Clean.foldl {α : Type} {f : Program → α → Program} {l : List α} (hf : ∀ a ∈ l, ∀ P, Clean P → Clean (f P a)) :
    ∀ {P}, Clean P → Clean (l.foldl f P) := by
  induction l with
  | nil => intro P h; exact h
  | cons a l ih =>
    intro P h
    exact ih (fun b hb => hf b (List.mem_cons_of_mem _ hb)) (hf a List.mem_cons_self P h)

theorem clean_vars (ti : TaskInfo) {ty : BlockingType} (hty : ty ≠ .other) (t : ℕ × TaskInfo) (r : Request) :
    CleanExp (vars ti ty t r) := by
  intro s hs
  obtain ⟨v, _, rfl⟩ := List.mem_map.1 hs
  exact hty

theorem clean_flatMap {α : Type} {l : List α} {g : α → Exp} (h : ∀ a ∈ l, CleanExp (g a)) : CleanExp (l.flatMap g) := by
  intro s hs
  obtain ⟨a, ha, hs⟩ := List.mem_flatMap.1 hs
  exact h a ha s hs

theorem clean_varsFor (ti : TaskInfo) {ty : BlockingType} (hty : ty ≠ .other) (q : ℕ) (ts : List (ℕ × TaskInfo)) :
    CleanExp (varsFor ti ty q ts) :=
  clean_flatMap (fun t _ => clean_flatMap (fun r _ => clean_vars ti hty t r))

theorem clean_enabled (l : List ℕ) : CleanExp (l.map (fun q => ((1 : ℚ), arrivalEnabled q))) := by
  intro s hs
  obtain ⟨q, _, rfl⟩ := List.mem_map.1 hs
  change BlockingType.preempt ≠ .other
  decide

theorem clean_subVar {e : Exp} (h : CleanExp e) {k : Key} (hk : k.ty ≠ .other) : CleanExp (subVar e k) := by
  unfold subVar
  split_ifs
  · exact h
  · intro s hs
    rcases List.mem_append.1 hs with hs | hs
    · exact h s hs
    · rw [List.mem_singleton.1 hs]; exact hk

theorem clean_common (info : Info) (i : ℕ) (ti : TaskInfo) : Clean (commonConstraints info i ti {}) := by
  have e : ∀ q, (arrivalEnabled q).ty ≠ .other := fun q => by
    change BlockingType.preempt ≠ .other
    decide
  have ha : arrival ≠ BlockingType.other := by decide
  have hd : BlockingType.direct ≠ .other := by decide
  have h0 : Clean ({} : Program) := ⟨by simp, by simp, rfl, by simp⟩
  have h1 : Clean (mutexConstraints info i ti {}) := by
    refine Clean.foldl (fun t _ P h => Clean.foldl (fun r _ P h => Clean.foldl (fun v _ P h => h.add ?_) h) h) h0
    intro s hs
    rcases List.mem_cons.1 hs with rfl | hs
    · exact hd
    · rw [List.mem_singleton.1 hs]; exact ha
  have h2 : Clean (conflictSetConstraints info ti (mutexConstraints info i ti {})) := h1.addEq (clean_enabled _)
  have h3 : Clean (oneArrivalConstraints info (conflictSetConstraints info ti (mutexConstraints info i ti {}))) :=
    h2.add (clean_enabled _)
  have h4 : Clean (noArrivalConstraints info ti (oneArrivalConstraints info (conflictSetConstraints info ti
      (mutexConstraints info i ti {})))) :=
    Clean.add (Clean.foldl (fun q _ P h => h.declare (e q)) h3) (clean_enabled _)
  have h5 : Clean (noHigherArrivalConstraints info ti (noArrivalConstraints info ti (oneArrivalConstraints info
      (conflictSetConstraints info ti (mutexConstraints info i ti {}))))) := by
    refine Clean.foldl (fun t _ P h => ?_) h4
    split_ifs
    · exact h.add (clean_flatMap (fun r _ => clean_vars ti ha t r))
    · exact h
  unfold commonConstraints
  refine Clean.foldl (fun q _ P h => ?_) (Clean.foldl (fun q _ P h => h.add (clean_subVar (clean_varsFor ti ha q _) (e q)))
    (h5.addEq (clean_flatMap (fun t _ => clean_flatMap (fun r _ => clean_vars ti hd t r)))))
  split_ifs
  · exact Clean.foldl (fun t _ P h => h.add (clean_varsFor ti hd q _)) h
  · exact h

/-- An assignment without preemptions. -/
def still (x : Key → ℚ) (k : Key) : ℚ := if k.ty = .other then 0 else x k

theorem termSum_still {x : Key → ℚ} {e : Exp} (h : CleanExp e) : termSum (still x) e = termSum x e := by
  unfold termSum
  congr 1
  apply List.map_congr_left
  intro t ht
  unfold still
  rw [if_neg (h t ht)]

/-! ### The program for preemptive spin locks -/

section
variable {info : Info} {i : ℕ} {ti : TaskInfo} {x : Key → ℚ}

theorem included_noRemote (P : Program) : Included P (noRemoteArrivalConstraints info ti P) :=
  included_foldl (fun P _ => included_foldl (fun P _ => included_addInequality P _ _) _ P) _ P

theorem included_preemptionStep (P : Program) (q : ℕ) : Included P
    (if countLocalHpReqs info ti q = 0 then addInequality (declareInteger P (preemptionsOf q)) [(1, preemptionsOf q)] 0
      else declareInteger P (preemptionsOf q)) := by
  split_ifs
  · exact (included_declareInteger P _).trans (included_addInequality _ _ _)
  · exact included_declareInteger P _

theorem included_preemption (P : Program) : Included P (preemptionConstraints info ti P) :=
  (included_foldl included_preemptionStep _ P).trans (included_addInequality _ _ _)

theorem included_preemptDirect (P : Program) : Included P (preemptDirectConstraints info ti P) :=
  included_foldl (fun P _ => included_foldl (fun P _ => included_addInequality P _ _) _ P) _ P

/-- Only numbers of preemptions are integer variables. -/
theorem integers_preemptFifo {v : Key} (hv : v ∈ (preemptFifoConstraints info i ti {}).integers) : v.ty = .other := by
  have hfold : ∀ {α : Type} {f : Program → α → Program} {l : List α},
      (∀ a ∈ l, ∀ P : Program, (∀ v ∈ P.integers, v.ty = .other) → ∀ v ∈ (f P a).integers, v.ty = .other) →
      ∀ {P : Program}, (∀ v ∈ P.integers, v.ty = .other) → ∀ v ∈ (l.foldl f P).integers, v.ty = .other := by
    intro α f l
    induction l with
    | nil => intro _ P h; exact h
    | cons a l ih =>
      intro hf P h
      exact ih (fun b hb => hf b (List.mem_cons_of_mem _ hb)) (hf a List.mem_cons_self P h)
  have hadd : ∀ (P : Program) (e : Exp) (b : ℚ), (∀ v ∈ P.integers, v.ty = .other) →
      ∀ v ∈ (addInequality P e b).integers, v.ty = .other := by
    intro P e b h
    unfold addInequality
    split_ifs <;> exact h
  have hdec : ∀ (P : Program) (q : ℕ), (∀ v ∈ P.integers, v.ty = .other) →
      ∀ v ∈ (declareInteger P (preemptionsOf q)).integers, v.ty = .other := by
    intro P q h v hv
    rcases List.mem_cons.1 hv with rfl | hv
    · rfl
    · exact h v hv
  have h0 : ∀ v ∈ (commonConstraints info i ti {}).integers, v.ty = .other := by
    rw [(clean_common info i ti).integer]
    intro v hv
    cases hv
  refine hfold (fun q _ P h => hfold (fun c _ P h => hadd P _ _ h) h) (hadd _ _ _ (hfold (fun q _ P h => ?_)
    (hfold (fun q _ P h => hfold (fun t _ P h => hadd P _ _ h) h) h0))) v hv
  dsimp only
  split_ifs
  · exact hadd _ _ _ (hdec P q h)
  · exact hdec P q h

/-- A feasible assignment is feasible for the constraints that hold for every spin lock. -/
theorem common_still (h : (preemptFifoConstraints info i ti {}).Feasible x) :
    (commonConstraints info i ti {}).Feasible (still x) := by
  have hw : Included (commonConstraints info i ti {}) (preemptFifoConstraints info i ti {}) :=
    ((included_noRemote _).trans (included_preemption _)).trans (included_preemptDirect _)
  have hc := clean_common info i ti
  refine ⟨fun c hm => ?_, fun c hm => ?_, fun v hv => ?_, fun v hv => ?_, fun v _ => ?_⟩
  · rw [termSum_still (hc.eq c hm)]; exact h.eq c (hw.eq c hm)
  · rw [termSum_still (hc.le c hm)]; exact h.le c (hw.le c hm)
  · rw [hc.integer] at hv; cases hv
  · unfold still
    rw [if_neg (hc.binary v hv)]
    exact h.binary v (hw.binary v hv)
  · unfold still
    split_ifs with hv
    · exact ⟨le_rfl, zero_le_one⟩
    · exact h.range v (fun hm => hv (integers_preemptFifo hm))

theorem clean_objective (P : Program) (hP : P.objective = []) : CleanExp (setObjective info i ti P).objective := by
  unfold setObjective
  dsimp only
  rw [hP, List.nil_append]
  refine clean_flatMap (fun t _ => clean_flatMap (fun r _ => clean_flatMap (fun v _ => ?_)))
  intro s hs
  rcases List.mem_cons.1 hs with rfl | hs
  · change BlockingType.direct ≠ .other; decide
  · rw [List.mem_singleton.1 hs]; change BlockingType.indirect ≠ .other; decide

theorem objective_preemptFifo : (preemptFifoConstraints info i ti {}).objective = [] := by
  unfold preemptFifoConstraints preemptDirectConstraints
  rw [objective_foldl]
  · unfold preemptionConstraints
    rw [objective_addInequality, objective_foldl]
    · unfold noRemoteArrivalConstraints
      rw [objective_foldl, objective_common]
      intro P q
      rw [objective_foldl]
      intro P t
      exact objective_addInequality _ _ _
    · intro P q
      dsimp only
      split_ifs
      · exact objective_addInequality _ _ _
      · rfl
  · intro P q
    rw [objective_foldl]
    intro P c
    exact objective_addInequality _ _ _

/-- Without preemptions, a feasible assignment is feasible for non-preemptive spinning. -/
theorem fifo_still (hti : ∀ t ∈ info, t.cluster = ti.cluster → ¬ t.priority < ti.priority)
    (h : (preemptFifoConstraints info i ti {}).Feasible x) :
    (fifoArrivalConstraints info ti (fifoDirectConstraints info ti (commonConstraints info i ti {}))).Feasible
      (still x) := by
  have hint : ∀ q ∈ allResources info, ∃ n : ℕ, x (preemptionsOf q) = n := by
    intro q hq
    apply h.integer
    refine (included_preemptDirect _).integer _ ((included_addInequality _ _ _).integer _ ?_)
    refine integer_foldl included_preemptionStep hq (fun P => ?_) _
    split_ifs
    · exact (included_addInequality _ _ _).integer _ List.mem_cons_self
    · exact List.mem_cons_self
  have hzero : ∀ q ∈ allResources info, x (preemptionsOf q) = 0 := by
    intro q hq
    have hm : maxPreemptions info ti = 0 := by
      unfold maxPreemptions
      rw [List.filter_eq_nil_iff.2]
      · rfl
      · intro t ht hc
        simp only [decide_eq_true_eq] at hc
        exact hti t ht hc.1 hc.2
    have hle := h.le ((allResources info).map (fun q => ((1 : ℚ), preemptionsOf q)), (maxPreemptions info ti : ℚ))
      ((included_preemptDirect _).le _ (mem_addInequality _ _ (by
        intro hn
        rw [List.map_eq_nil_iff] at hn
        rw [hn] at hq
        cases hq)))
    dsimp only at hle
    rw [hm] at hle
    have h1 : x (preemptionsOf q) ≤ termSum x ((allResources info).map (fun q => ((1 : ℚ), preemptionsOf q))) := by
      unfold termSum
      apply List.single_le_sum
      · intro a ha
        rw [List.map_map] at ha
        obtain ⟨r, hr, rfl⟩ := List.mem_map.1 ha
        obtain ⟨n, hn⟩ := hint r hr
        simp only [Function.comp, one_mul, hn]
        exact Nat.cast_nonneg n
      · rw [List.map_map]
        exact List.mem_map.2 ⟨q, hq, by simp⟩
    obtain ⟨n, hn⟩ := hint q hq
    have h2 : (0 : ℚ) ≤ x (preemptionsOf q) := by rw [hn]; exact Nat.cast_nonneg n
    have h3 : ((0 : ℕ) : ℚ) = 0 := Nat.cast_zero
    linarith
  have hrange : ∀ k : Key, k.ty ≠ .other → 0 ≤ x k := fun k hk =>
    (h.range k (fun hm => hk (integers_preemptFifo hm))).1
  have harr : ∀ q ∈ allResources info, ∀ t ∈ tasks info, t.2.cluster ≠ ti.cluster →
      termSum x (varsFor ti arrival q [t]) ≤ 0 := by
    intro q hq t ht hne
    by_cases he : varsFor ti arrival q [t] = []
    · rw [he]; exact le_of_eq rfl
    refine h.le (varsFor ti arrival q [t], 0) ((included_preemptDirect _).le _ ((included_preemption _).le _ ?_))
    refine mem_foldl (fun P _ => included_foldl (fun P _ => included_addInequality P _ _) _ P) hq (fun P => ?_) _
    refine mem_foldl (fun P _ => included_addInequality P _ _) ht (fun P => ?_) _
    rw [if_pos hne]
    exact mem_addInequality _ _ he
  have hcl : ∀ c ∈ otherClusters info ti, ∀ t ∈ c, t ∈ tasks info ∧ t.2.cluster ≠ ti.cluster := by
    intro c hc t ht
    obtain ⟨k, hk, rfl⟩ := mem_otherClusters hc
    rw [List.mem_filter] at ht
    refine ⟨ht.1, ?_⟩
    have := ht.2
    simp only [decide_eq_true_eq] at this
    rw [this]
    exact hk
  refine feasible_foldl (fun c hc P hP => feasible_foldl (fun q hq P hP => ?_) hP) (feasible_foldl (fun q hq P hP =>
    feasible_foldl (fun c hc P hP => feasible_addInequality hP ?_) hP) (common_still h))
  · dsimp only
    split_ifs
    · exact hP
    · refine feasible_addInequality (feasible_declareBinary hP ?_) ?_
      · exact (common_still h).binary _ (binary_common hq)
      · have h1 : termSum x (varsFor ti arrival q c) ≤ 0 := by
          have : ∀ l : List (ℕ × TaskInfo), (∀ t ∈ l, t ∈ tasks info ∧ t.2.cluster ≠ ti.cluster) →
              termSum x (varsFor ti arrival q l) ≤ 0 := by
            intro l
            induction l with
            | nil => intro _; exact le_of_eq rfl
            | cons t l ih =>
              intro hl
              have e : varsFor ti arrival q (t :: l) = varsFor ti arrival q [t] ++ varsFor ti arrival q l := by
                simp [varsFor]
              rw [e, termSum_append]
              have h2 := harr q hq t (hl t List.mem_cons_self).1 (hl t List.mem_cons_self).2
              have h3 := ih (fun s hs => hl s (List.mem_cons_of_mem _ hs))
              linarith
          exact this c (hcl c hc)
        have hd : (arrivalEnabled q).ty ≠ .other := by change BlockingType.preempt ≠ .other; decide
        rw [termSum_still (by
          intro s hs
          rcases List.mem_append.1 hs with hs | hs
          · exact clean_varsFor ti (by decide) q c s hs
          · rw [List.mem_singleton.1 hs]; exact hd), termSum_append]
        have h2 := hrange (arrivalEnabled q) hd
        have h3 : termSum x [((-1 : ℚ), arrivalEnabled q)] = - x (arrivalEnabled q) := by simp [termSum]
        rw [h3]
        linarith
  · rw [termSum_still (clean_varsFor ti (by decide) q c)]
    by_cases he : varsFor ti .direct q c = []
    · rw [he]; exact Nat.cast_nonneg _
    have hs : subVar (varsFor ti .direct q c) (preemptionsOf q) = varsFor ti .direct q c ++ [(-1, preemptionsOf q)] := by
      unfold subVar
      rw [if_neg (by simpa using he)]
    have hle := h.le (subVar (varsFor ti .direct q c) (preemptionsOf q), (countLocalHpReqs info ti q : ℚ)) (by
      refine mem_foldl (fun P _ => included_foldl (fun P _ => included_addInequality P _ _) _ P) hq (fun P => ?_) _
      refine mem_foldl (fun P _ => included_addInequality P _ _) hc (fun P => ?_) _
      exact mem_addInequality _ _ (by rw [hs]; simp))
    dsimp only at hle
    rw [hs, termSum_append] at hle
    have h3 : termSum x [((-1 : ℚ), preemptionsOf q)] = 0 := by simp [termSum, hzero q hq]
    linarith

end

/-! ### The bounds -/

theorem lrint_monotone {p q : ℚ} (h : p ≤ q) : lrint p ≤ lrint q := by
  have h1 : ⌊p⌋ ≤ ⌊q⌋ := Int.floor_le_floor h
  rcases h1.lt_or_eq with h1 | h1
  · have h2 : lrint p ≤ ⌊p⌋ + 1 := by
      unfold lrint
      split_ifs <;> omega
    have h3 : ⌊q⌋ ≤ lrint q := by
      unfold lrint
      split_ifs <;> omega
    omega
  · unfold lrint
    rw [h1]
    have h2 : p - (⌊q⌋ : ℚ) ≤ q - (⌊q⌋ : ℚ) := by linarith
    split_ifs <;> first | omega | (exfalso; linarith)

theorem feasible_of_setObjective {info : Info} {i : ℕ} {ti : TaskInfo} {P : Program} {x : Key → ℚ}
    (h : (setObjective info i ti P).Feasible x) : P.Feasible x := ⟨h.eq, h.le, h.integer, h.binary, h.range⟩

theorem solved_le {P Q : Program} {s s' : Solver} (hs : ∀ P x, s P = some x → P.Maximum x)
    (hs' : ∀ P x, s' P = some x → P.Maximum x)
    (hle : ∀ x, P.Feasible x → ∃ y, Q.Feasible y ∧ termSum x P.objective ≤ termSum y Q.objective) {b b' : ℕ}
    (hb : solved s P = some b) (hb' : solved s' Q = some b') : b ≤ b' := by
  unfold solved at hb hb'
  obtain ⟨x, hx, rfl⟩ := Option.map_eq_some_iff.1 hb
  obtain ⟨z, hz, rfl⟩ := Option.map_eq_some_iff.1 hb'
  obtain ⟨y, hy, hxy⟩ := hle x (hs P x hx).feasible
  exact Int.toNat_le_toNat (lrint_monotone (hxy.trans ((hs' Q z hz).best y hy)))

theorem getElem_bounds {info : Info} {f : ℕ × TaskInfo → Option ℕ} {bs : List ℕ} (h : (tasks info).mapM f = some bs)
    {i : ℕ} {ti : TaskInfo} (hi : info[i]? = some ti) {b : ℕ} (hb : bs[i]? = some b) : f (i, ti) = some b := by
  obtain ⟨h1, h2⟩ := bounds_eq h
  obtain ⟨hlt, rfl⟩ := List.getElem?_eq_some_iff.1 hi
  obtain ⟨b', hb'⟩ := Option.isSome_iff_exists.1 (h2 ⟨i, hlt⟩)
  have h3 : bs[i]? = some ((f (i, info.get ⟨i, hlt⟩)).getD 0) := by
    rw [h1, List.getElem?_map, List.getElem?_eq_getElem (by simpa using hlt)]
    simp
  rw [hb] at h3
  rw [Option.some.inj h3]
  have h4 : f (i, info.get ⟨i, hlt⟩) = some b' := hb'
  change f (i, info.get ⟨i, hlt⟩) = _
  rw [h4]
  rfl

/-- **C149**: with solvers that find optimal solutions, the bound of a task for preemptive FIFO spin locks is at most that
for spin locks without any order of the requests. -/
theorem C149_preemptive_le_baseline (info : Info) (s s' : Solver) (hs : ∀ P x, s P = some x → P.Maximum x)
    (hs' : ∀ P x, s' P = some x → P.Maximum x) (bs bs' : List ℕ) (h : preemptFifoBounds s info = some bs)
    (h' : baselineBounds s' info = some bs') (i b b' : ℕ) (hi : i < info.length) (hb : bs[i]? = some b)
    (hb' : bs'[i]? = some b') : b ≤ b' := by
  have ht : info[i]? = some info[i] := List.getElem?_eq_getElem hi
  refine solved_le hs hs' (fun x hx => ⟨still x, feasible_setObjective (common_still (feasible_of_setObjective hx)),
    le_of_eq ?_⟩) (getElem_bounds h ht hb) (getElem_bounds h' ht hb')
  rw [termSum_still (clean_objective _ (by rw [objective_common]))]
  unfold setObjective
  dsimp only
  rw [objective_preemptFifo, objective_common]

/-- **C149**: with solvers that find optimal solutions, the bound for preemptive FIFO spin locks of a task that is not
preempted is at most that for non-preemptive FIFO spin locks. -/
theorem C149_not_preempted_le_msrp (info : Info) (s s' : Solver) (hs : ∀ P x, s P = some x → P.Maximum x)
    (hs' : ∀ P x, s' P = some x → P.Maximum x) (bs bs' : List ℕ) (h : preemptFifoBounds s info = some bs)
    (h' : msrpBounds s' info = some bs') (i b b' : ℕ) (hi : i < info.length)
    (hti : ∀ t ∈ info, t.cluster = info[i].cluster → info[i].priority ≤ t.priority) (hb : bs[i]? = some b)
    (hb' : bs'[i]? = some b') : b ≤ b' := by
  have ht : info[i]? = some info[i] := List.getElem?_eq_getElem hi
  refine solved_le hs hs' (fun x hx => ⟨still x, feasible_setObjective (fifo_still (fun t ht hc => (hti t ht hc).not_gt)
    (feasible_of_setObjective hx)), le_of_eq ?_⟩) (getElem_bounds h ht hb) (getElem_bounds h' ht hb')
  rw [termSum_still (clean_objective _ (by rw [objective_fifo, objective_common]))]
  unfold setObjective
  dsimp only
  rw [objective_preemptFifo, objective_fifo, objective_common]

/-! ### The lowest priority of a processor -/

section
variable {info : Info} {i : ℕ} {ti : TaskInfo} {x : Key → ℚ}

/-- The constraints for non-preemptive FIFO spin locks. -/
theorem clean_fifo : Clean (fifoArrivalConstraints info ti (fifoDirectConstraints info ti (commonConstraints info i ti {}))) := by
  have e : ∀ q, (arrivalEnabled q).ty ≠ .other := fun q => by
    change BlockingType.preempt ≠ .other
    decide
  refine Clean.foldl (fun c _ P h => Clean.foldl (fun q _ P h => ?_) h) (Clean.foldl (fun q _ P h =>
    Clean.foldl (fun c _ P h => h.add (clean_varsFor ti (by decide) q c)) h) (clean_common info i ti))
  dsimp only
  split_ifs
  · exact h
  · refine (h.declare (e q)).add (fun s hs => ?_)
    rcases List.mem_append.1 hs with hs | hs
    · exact clean_varsFor ti (by decide) q c s hs
    · rw [List.mem_singleton.1 hs]; exact e q

theorem included_fifoDirect (P : Program) : Included P (fifoDirectConstraints info ti P) :=
  included_foldl (fun P _ => included_foldl (fun P _ => included_addInequality P _ _) _ P) _ P

theorem included_declareBinary (P : Program) (k : Key) : Included P (declareBinary P k) :=
  ⟨fun _ h => h, fun _ h => h, fun _ h => h, fun _ h => List.mem_cons_of_mem _ h⟩

theorem included_fifoArrivalStep (P : Program) (c : List (ℕ × TaskInfo)) (q : ℕ) : Included P
    (if (varsFor ti arrival q c).isEmpty then P
      else addInequality (declareBinary P (arrivalEnabled q)) (varsFor ti arrival q c ++ [(-1, arrivalEnabled q)]) 0) := by
  split_ifs
  · exact Included.refl P
  · exact (included_declareBinary P _).trans (included_addInequality _ _ _)

theorem included_fifoArrival (P : Program) : Included P (fifoArrivalConstraints info ti P) :=
  included_foldl (fun P c => included_foldl (fun P q => included_fifoArrivalStep P c q) _ P) _ P

theorem mem_otherClusters_of {t : ℕ × TaskInfo} (ht : t ∈ tasks info) (hne : t.2.cluster ≠ ti.cluster) :
    ∃ c ∈ otherClusters info ti, t ∈ c := by
  obtain ⟨k, rfl⟩ := mem_tasks.1 ht
  have hlt := cluster_lt_split k
  have hc := cluster_tasks info (info.get k).cluster
  refine ⟨(splitByCluster info)[(info.get k).cluster], ?_, ?_⟩
  · unfold otherClusters
    refine List.mem_map.2 ⟨((splitByCluster info)[(info.get k).cluster], (info.get k).cluster), List.mem_filter.2 ⟨?_, ?_⟩, rfl⟩
    · rw [List.mem_zipIdx_iff_getElem?]
      exact List.getElem?_eq_getElem hlt
    · simpa using hne
  · rw [List.getD_eq_getElem?_getD, List.getElem?_eq_getElem hlt, Option.getD_some] at hc
    rw [hc]
    exact List.mem_filter.2 ⟨ht, by simp⟩

/-- Without arrival blocking, a feasible assignment for non-preemptive spinning is feasible for preemptive spinning. -/
theorem preempt_still (hti : ∀ t ∈ info, t.cluster = ti.cluster → ¬ t.priority > ti.priority)
    (h : (fifoArrivalConstraints info ti (fifoDirectConstraints info ti (commonConstraints info i ti {}))).Feasible x) :
    (preemptFifoConstraints info i ti {}).Feasible (still x) := by
  have hrange : ∀ k, 0 ≤ x k ∧ x k ≤ 1 := fun k => h.range k (by rw [clean_fifo.integer]; simp)
  have hinc := (included_fifoDirect (info := info) (ti := ti) (commonConstraints info i ti {})).trans
    (included_fifoArrival (info := info) (ti := ti) _)
  have hcl := clean_common info i ti
  have hcommon : (commonConstraints info i ti {}).Feasible (still x) := by
    refine ⟨fun c hm => ?_, fun c hm => ?_, fun v hv => ?_, fun v hv => ?_, fun v _ => ?_⟩
    · rw [termSum_still (hcl.eq c hm)]; exact h.eq c (hinc.eq c hm)
    · rw [termSum_still (hcl.le c hm)]; exact h.le c (hinc.le c hm)
    · rw [hcl.integer] at hv; cases hv
    · unfold still
      rw [if_neg (hcl.binary v hv)]
      exact h.binary v (hinc.binary v hv)
    · unfold still
      split_ifs
      · exact ⟨le_rfl, zero_le_one⟩
      · exact hrange v
  have hsingle : ∀ (e : Exp), (∀ t ∈ e, t.1 = 1) → ∀ t ∈ e, x t.2 ≤ termSum x e := by
    intro e he t ht
    unfold termSum
    refine List.single_le_sum (fun a ha => ?_) _ (List.mem_map.2 ⟨t, ht, by rw [he t ht, one_mul]⟩)
    obtain ⟨u, hu, rfl⟩ := List.mem_map.1 ha
    rw [he u hu, one_mul]
    exact (hrange _).1
  -- no resource causes arrival blocking
  have hen : ∀ q ∈ allResources info, x (arrivalEnabled q) ≤ 0 := by
    intro q hq
    have hlow : ∀ q, lowerPrioReqs info ti q = 0 := by
      intro q
      unfold lowerPrioReqs
      rw [List.filter_eq_nil_iff.2]
      · rfl
      · intro t ht hc
        simp only [decide_eq_true_eq] at hc
        exact hti t ht hc.1 hc.2
    have hf : (allResources info).filter (fun q => lowerPrioReqs info ti q = 0) = allResources info :=
      List.filter_eq_self.2 (fun q _ => by simp [hlow q])
    have hm : ((allResources info).map (fun q => ((1 : ℚ), arrivalEnabled q)), (0 : ℚ)) ∈
        (commonConstraints info i ti {}).inequalities := by
      unfold commonConstraints contentionConstraints localArrivalConstraints noLocalDirectConstraints
        noHigherArrivalConstraints
      refine (included_foldl (fun P a => ?_) _ _).le _ ((included_foldl (fun P a => included_addInequality P _ _) _ _).le _
        ((included_addEquality _ _ _).le _ ((included_foldl (fun P a => ?_) _ _).le _ ?_)))
      · split_ifs
        · exact included_foldl (fun P a => included_addInequality P _ _) _ P
        · exact Included.refl P
      · split_ifs
        · exact included_addInequality P _ _
        · exact Included.refl P
      · unfold noArrivalConstraints
        rw [hf]
        refine mem_addInequality _ _ (fun hn => ?_)
        rw [List.map_eq_nil_iff] at hn
        rw [hn] at hq
        cases hq
    have h1 := h.le _ (hinc.le _ hm)
    refine le_trans (hsingle _ ?_ (1, arrivalEnabled q) (List.mem_map.2 ⟨q, hq, rfl⟩)) h1
    intro t ht
    obtain ⟨r, _, rfl⟩ := List.mem_map.1 ht
    rfl
  have hone : ∀ ty q c, ∀ t ∈ varsFor ti ty q c, t.1 = 1 := by
    intro ty q c t ht
    unfold varsFor at ht
    obtain ⟨a, _, ht⟩ := List.mem_flatMap.1 ht
    obtain ⟨r, _, ht⟩ := List.mem_flatMap.1 ht
    obtain ⟨v, _, rfl⟩ := List.mem_map.1 ht
    rfl
  have harr : ∀ q ∈ allResources info, ∀ t ∈ tasks info, t.2.cluster ≠ ti.cluster →
      termSum x (varsFor ti arrival q [t]) = 0 := by
    intro q hq t ht hne
    obtain ⟨c, hc, htc⟩ := mem_otherClusters_of ht hne
    apply termSum_zero
    intro s hs
    have hsc : s ∈ varsFor ti arrival q c := by
      unfold varsFor at hs ⊢
      rw [List.flatMap_cons, List.flatMap_nil, List.append_nil] at hs
      exact List.mem_flatMap.2 ⟨t, htc, hs⟩
    have hne' : varsFor ti arrival q c ≠ [] := List.ne_nil_of_mem hsc
    have hm := h.le (varsFor ti arrival q c ++ [(-1, arrivalEnabled q)], 0) (by
      refine mem_foldl (fun P c => included_foldl (fun P q => included_fifoArrivalStep P c q) _ P) hc (fun P => ?_) _
      refine mem_foldl (fun P q => included_fifoArrivalStep P c q) hq (fun P => ?_) _
      rw [if_neg (by simpa using hne')]
      exact mem_addInequality _ _ (by simp))
    dsimp only at hm
    rw [termSum_append] at hm
    have h2 : termSum x [((-1 : ℚ), arrivalEnabled q)] = - x (arrivalEnabled q) := by simp [termSum]
    have h3 := hsingle _ (hone arrival q c) s hsc
    have h4 := hen q hq
    have h5 := (hrange s.2).1
    rw [h2] at hm
    linarith
  have hpre : ∀ q, still x (preemptionsOf q) = 0 := fun q => if_pos rfl
  refine feasible_foldl (fun q hq P hP => feasible_foldl (fun c hc P hP => feasible_addInequality hP ?_) hP)
    (feasible_addInequality (feasible_foldl (fun q hq P hP => ?_) (feasible_foldl (fun q hq P hP =>
      feasible_foldl (fun t ht P hP => feasible_addInequality hP ?_) hP) hcommon)) ?_)
  · by_cases he : varsFor ti .direct q c = []
    · unfold subVar
      rw [he]
      exact Nat.cast_nonneg _
    · unfold subVar
      rw [if_neg (by simpa using he), termSum_append, termSum_still (clean_varsFor ti (by decide) q c)]
      have h1 : termSum (still x) [((-1 : ℚ), preemptionsOf q)] = 0 := by simp [termSum, hpre]
      have h2 := h.le (varsFor ti .direct q c, (countLocalHpReqs info ti q : ℚ)) ((included_fifoArrival _).le _ (by
        refine mem_foldl (fun P _ => included_foldl (fun P _ => included_addInequality P _ _) _ P) hq (fun P => ?_) _
        refine mem_foldl (fun P _ => included_addInequality P _ _) hc (fun P => ?_) _
        exact mem_addInequality _ _ he))
      dsimp only at h2
      linarith
  · have hd : (declareInteger P (preemptionsOf q)).Feasible (still x) :=
      feasible_declareInteger hP ⟨0, by rw [hpre]; rfl⟩
    dsimp only
    split_ifs
    · exact feasible_addInequality hd (by simp [termSum, hpre])
    · exact hd
  · split_ifs with hne
    · rw [termSum_still (clean_varsFor ti (by decide) q _)]
      exact (harr q hq t ht hne).le
    · exact le_of_eq rfl
  · refine le_trans (le_of_eq (termSum_zero (fun t ht => ?_))) (Nat.cast_nonneg _)
    obtain ⟨q, _, rfl⟩ := List.mem_map.1 ht
    exact hpre q

end

/-- **C149**: with solvers that find optimal solutions, the bound for preemptive FIFO spin locks of a task with the lowest
priority on its processor is at least that for non-preemptive FIFO spin locks. -/
theorem C149_lowest_ge_msrp (info : Info) (s s' : Solver) (hs : ∀ P x, s P = some x → P.Maximum x)
    (hs' : ∀ P x, s' P = some x → P.Maximum x) (bs bs' : List ℕ) (h : preemptFifoBounds s info = some bs)
    (h' : msrpBounds s' info = some bs') (i b b' : ℕ) (hi : i < info.length)
    (hti : ∀ t ∈ info, t.cluster = info[i].cluster → t.priority ≤ info[i].priority) (hb : bs[i]? = some b)
    (hb' : bs'[i]? = some b') : b' ≤ b := by
  have ht : info[i]? = some info[i] := List.getElem?_eq_getElem hi
  refine solved_le hs' hs (fun x hx => ⟨still x, feasible_setObjective (preempt_still (fun t ht hc => (hti t ht hc).not_gt)
    (feasible_of_setObjective hx)), le_of_eq ?_⟩) (getElem_bounds h' ht hb') (getElem_bounds h ht hb)
  rw [termSum_still (clean_objective _ objective_preemptFifo)]
  unfold setObjective
  dsimp only
  rw [objective_preemptFifo, objective_fifo, objective_common]

end Verif.SR.Lp
