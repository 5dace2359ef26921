/-
C92: the bounds for the priority inheritance protocol under global fixed-priority scheduling
(`native/src/blocking/global-pip.cpp`, used by `apply_classic_pip_bounds` of
`schedcat/locking/bounds.py`) with the response-time analysis of `schedcat/sched/fp/bertogna.py`.
-/
import Verif.Model.Pip
import Verif.Lemmas.Pip
import Verif.Lemmas.MsrpModel
import Verif.Props.GlobalFp

namespace Verif.GFp
open Verif.Spec Finset

variable {ts : List FTask} {m : ℕ}

/-- A successful run collects a bound for every task, computed from the bounds of the tasks
before it. -/
theorem allTasks_trace (P : Fin ts.length → ℕ → Prop)
    (test : FTask → List (FTask × ℤ) → Option (Option ℤ))
    (hstep : ∀ (k : Fin ts.length) (E : Fin ts.length → ℕ), (∀ i < k, P i (E i)) → ∀ r,
      test (ts.get k) (doneOf ts E k) = some (some r) → ∃ R : ℕ, r = R ∧ P k R)
    {rs : List (FTask × ℤ)} (h : allTasks test [] ts = some (true, rs)) :
    ∃ E, rs = doneOf ts E ts.length ∧
      ∀ i, P i (E i) ∧ test (ts.get i) (doneOf ts E i) = some (some (E i : ℤ)) := by
  have hcongr : ∀ (E E' : Fin ts.length → ℕ) (k : ℕ), (∀ i, i.1 < k → E i = E' i) →
      doneOf ts E k = doneOf ts E' k := by
    intro E E' k he
    unfold doneOf
    apply List.map_congr_left
    intro i hi
    rw [he i ((mem_take_finRange i).1 hi)]
  have key : ∀ (rest : List FTask) (k : ℕ) (E : Fin ts.length → ℕ), k ≤ ts.length →
      rest = ts.drop k → (∀ i, i.1 < k → P i (E i) ∧
        test (ts.get i) (doneOf ts E i) = some (some (E i : ℤ))) →
      allTasks test (doneOf ts E k) rest = some (true, rs) →
      ∃ E, rs = doneOf ts E ts.length ∧
        ∀ i, P i (E i) ∧ test (ts.get i) (doneOf ts E i) = some (some (E i : ℤ)) := by
    intro rest
    induction rest with
    | nil =>
      intro k E hk hr hP h
      rw [allTasks] at h
      simp only [Option.some.injEq, Prod.mk.injEq, true_and] at h
      have hkn : k = ts.length := by
        have := congrArg List.length hr
        simp at this
        omega
      subst hkn
      exact ⟨E, h.symm, fun i => hP i i.2⟩
    | cons t rest ih =>
      intro k E hk hr hP h
      have hklt : k < ts.length := by
        have := congrArg List.length hr
        simp at this
        omega
      have ht : t = ts.get ⟨k, hklt⟩ ∧ rest = ts.drop (k + 1) := by
        rw [List.drop_eq_getElem_cons hklt, List.cons.injEq] at hr
        exact hr
      rw [allTasks] at h
      cases hres : test t (doneOf ts E k) with
      | none => rw [hres] at h; simp at h
      | some o =>
        cases o with
        | none => rw [hres] at h; simp at h
        | some r =>
          rw [hres] at h
          simp only at h
          rw [ht.1] at hres
          obtain ⟨R, rfl, hR⟩ := hstep ⟨k, hklt⟩ E (fun i hi => (hP i hi).1) r hres
          rw [ht.1, doneOf_succ E ⟨k, hklt⟩ R] at h
          refine ih (k + 1) _ hklt ht.2 ?_ h
          have hne : ∀ i : Fin ts.length, i.1 < k → Function.update E ⟨k, hklt⟩ R i = E i := by
            intro i hi
            rw [Function.update_of_ne]
            intro he
            rw [he] at hi
            exact lt_irrefl _ hi
          intro i hi
          by_cases hik : i = ⟨k, hklt⟩
          · subst hik
            rw [Function.update_self]
            refine ⟨hR, ?_⟩
            rw [hcongr _ E _ hne]
            exact hres
          · have hik' : i.1 < k := by
              have : i.1 ≠ k := fun h => hik (Fin.ext h)
              omega
            rw [hne i hik', hcongr _ E i.1 (fun i' hi' => hne i' (hi'.trans hik'))]
            exact hP i hik'
  refine key ts 0 (fun _ => 0) (Nat.zero_le _) (by simp) (fun i hi => absurd hi (by omega)) ?_
  simpa [doneOf] using h

/-- The equations that the reported response times satisfy. -/
theorem bertogna_facts {n : ℕ} {fuel : ℕ} {noSlack : Bool} (hn : ts.length = n) {rs : List (FTask × ℤ)}
    (C T D B H : Fin n → ℕ)
    (hts : ∀ i : Fin n, ts.get (i.cast hn.symm) = ⟨C i, T i, D i, some (B i), some (H i)⟩)
    (h : bertogna fuel m ts noSlack = some (true, rs)) :
    ∃ E : Fin n → ℕ, ∀ i : Fin n, rs[i.1]? = some (ts.get (i.cast hn.symm), (E i : ℤ)) ∧
      C i + B i ≤ E i ∧ E i ≤ D i ∧
      (i.1 < m ∨ C i + B i + ((∑ i' ∈ univ.filter (fun i' => i' < i),
        gwork (C i') (T i') (E i + (if noSlack then D i' else E i') - C i')) - H i) / m = E i) := by
  subst hn
  have hts' : ∀ i, ts.get i = ⟨C i, T i, D i, some (B i), some (H i)⟩ := hts
  have hC : costs ts = C := by funext i; unfold costs; rw [hts']
  have hTT : periods ts = T := by funext i; unfold periods; rw [hts']
  have hD : deadlines ts = D := by funext i; unfold deadlines; rw [hts']
  have hB : ∀ i, (ts.get i).blocked.getD 0 = B i := by intro i; rw [hts']; rfl
  have hH : ∀ i, highBlocking ts i = H i := by intro i; unfold highBlocking; rw [hts']; rfl
  obtain ⟨E, rfl, hE⟩ := allTasks_trace (fun i R => costs ts i ≤ R ∧ R ≤ deadlines ts i)
    (bertognaTask fuel m noSlack) (by
      intro k E hE r hr
      obtain ⟨R, rfl, h1, h2, -⟩ := bertogna_bounds noSlack hE hr
      exact ⟨R, rfl, by omega, h2⟩) h
  refine ⟨E, fun i => ⟨doneOf_get E i, ?_⟩⟩
  obtain ⟨R, hR, h1, h2, h3⟩ := bertogna_bounds noSlack (fun i' _ => (hE i').1) (hE i).2
  have hR' : E i = R := by exact_mod_cast hR
  subst hR'
  rw [hC, hB] at h1
  rw [hD] at h2
  refine ⟨h1, h2, h3.imp_right fun h4 => ?_⟩
  unfold demN at h4
  rw [hB, hH] at h4
  have e : (ts.get i).cost = C i := by rw [hts']
  rw [e] at h4
  unfold hpWork at h4
  rw [hC, hTT, hD] at h4
  exact h4

end Verif.GFp

namespace Verif.SR.Pip
open Verif.Spec Verif.SR.Msrp Finset

/-! ### The bounds -/

theorem foldl_add_if' {α : Type} (c : α → Prop) [DecidablePred c] (f : α → ℕ) (l : List α) : ∀ a,
    l.foldl (fun acc t => if c t then acc + f t else acc) a = a + (l.map (fun t => if c t then f t else 0)).sum := by
  induction l with
  | nil => intro a; simp
  | cons x l ih =>
    intro a
    rw [List.foldl_cons, ih, List.map_cons, List.sum_cons]
    split_ifs <;> omega

theorem sum_info {info : Info} (f : TaskInfo → ℕ) : (info.map f).sum = ∑ i : Fin info.length, f (info.get i) := by
  rw [← Fin.sum_univ_fun_getElem]
  rfl

theorem workload_eq (t : ℕ) (task : TaskInfo) (x : ℕ) :
    workload t task x = gwork x task.period (t + task.deadline - x) := by
  unfold workload numJobs gwork
  rw [Nat.mul_comm x]
  congr 2
  have := Nat.div_add_mod (t + task.deadline - x) task.period
  omega

variable {info : Info}

theorem ihpDsr_eq (hprio : ∀ i : Fin info.length, (info.get i).priority = i) (k : Fin info.length) :
    ihpDsr info (info.get k) = ∑ i ∈ univ.filter (fun i => i < k),
      gwork (commonSrTime (info.get k) (info.get i)) (info.get i).period
        ((info.get k).response + (info.get i).deadline - commonSrTime (info.get k) (info.get i)) := by
  unfold ihpDsr
  rw [foldl_add_if', zero_add, sum_info, sum_filter]
  apply sum_congr rfl
  intro i _
  rw [workload_eq, hprio, hprio]
  apply if_congr _ rfl rfl
  exact Iff.rfl

theorem ilp_ge (hprio : ∀ i : Fin info.length, (info.get i).priority = i) (k : Fin info.length) {m : ℕ}
    (hm : 0 < m) :
    ∑ i ∈ univ.filter (fun i => k < i),
      gwork (higherCeilingTime info (info.get k) (info.get i)) (info.get i).period
        ((info.get k).response + (info.get i).deadline - higherCeilingTime info (info.get k) (info.get i)) ≤
      m * ilp info (info.get k) m := by
  have e : (info.foldl (fun sum tl => if tl.priority > (info.get k).priority then
      sum + workload (info.get k).response tl (higherCeilingTime info (info.get k) tl) else sum) 0) =
      ∑ i ∈ univ.filter (fun i => k < i),
      gwork (higherCeilingTime info (info.get k) (info.get i)) (info.get i).period
        ((info.get k).response + (info.get i).deadline - higherCeilingTime info (info.get k) (info.get i)) := by
    rw [foldl_add_if', zero_add, sum_info, sum_filter]
    apply sum_congr rfl
    intro i _
    rw [workload_eq, hprio, hprio]
    apply if_congr _ rfl rfl
    exact Iff.rfl
  unfold ilp
  rw [e]
  generalize (∑ i ∈ univ.filter (fun i => k < i),
      gwork (higherCeilingTime info (info.get k) (info.get i)) (info.get i).period
        ((info.get k).response + (info.get i).deadline - higherCeilingTime info (info.get k) (info.get i))) = x
  unfold Native.divideWithCeil
  have h1 := Nat.div_add_mod x m
  have h2 := Nat.mod_lt x hm
  split_ifs with h
  · omega
  · rw [Nat.mul_add]; omega

/-- The declared time in sections for resources of one kind. -/
theorem reqs_sum (i : Fin info.length) (P : ℕ → Prop) [DecidablePred P] :
    (((system info).reqs i).map (fun q => if P q.res then q.len * q.num else 0)).sum =
      ((info.get i).requests.map (fun q => if P q.resId then q.length * q.num else 0)).sum := by
  show (((info.get i).requests.map _).map _).sum = _
  rw [List.map_map]
  rfl

theorem reqs_sum_le (l : List Request) (P : ℕ → Prop) [DecidablePred P] :
    (l.map (fun q => if P q.resId then q.length * q.num else 0)).sum ≤ (l.map (fun q => q.num * q.length)).sum := by
  apply List.sum_le_sum
  intro q _
  split_ifs
  · rw [Nat.mul_comm]
  · exact Nat.zero_le _

open Classical in
theorem commonSrTime_eq (k i : Fin info.length) (hnd : ((info.get k).requests.map (·.resId)).Nodup) :
    commonSrTime (info.get k) (info.get i) =
      ((info.get i).requests.map (fun q => if (system info).Uses k q.resId then q.length * q.num else 0)).sum := by
  have hin : ∀ (l : List Request) (r a : ℕ), l.foldl (fun sum q' => if r = q'.resId then
      sum + q'.length * q'.num else sum) a =
      a + (l.map (fun q' => if r = q'.resId then q'.length * q'.num else 0)).sum := by
    intro l r a
    rw [foldl_add_if' (fun q' : Request => r = q'.resId)]
  have key : ∀ (l l' : List Request) (a : ℕ), (l.map (·.resId)).Nodup →
      l.foldl (fun sum q => l'.foldl (fun sum q' => if q.resId = q'.resId then
        sum + q'.length * q'.num else sum) sum) a =
      a + (l'.map (fun q' => if ∃ q ∈ l, q.resId = q'.resId then q'.length * q'.num else 0)).sum := by
    intro l l'
    induction l with
    | nil => intro a _; simp
    | cons q l ih =>
      intro a hnd
      rw [List.map_cons, List.nodup_cons] at hnd
      rw [List.foldl_cons, ih _ hnd.2, hin, add_assoc, ← List.sum_map_add]
      congr 2
      apply List.map_congr_left
      intro q' _
      by_cases h1 : q.resId = q'.resId
      · have h2 : ¬ ∃ q2 ∈ l, q2.resId = q'.resId := by
          rintro ⟨q2, hq2, he⟩
          exact hnd.1 (List.mem_map.2 ⟨q2, hq2, he.trans h1.symm⟩)
        rw [if_pos h1, if_neg h2, if_pos ⟨q, List.mem_cons_self, h1⟩, add_zero]
      · rw [if_neg h1, zero_add]
        apply if_congr _ rfl rfl
        simp [h1]
  unfold commonSrTime
  rw [key _ _ _ hnd, zero_add]
  congr 1
  apply List.map_congr_left
  intro q' _
  apply if_congr _ rfl rfl
  rw [uses_iff]

theorem higherCeilingTime_eq (k i : Fin info.length) :
    higherCeilingTime info (info.get k) (info.get i) =
      ((info.get i).requests.map (fun q => if ceilingOf info q.resId < (info.get k).priority then
        q.length * q.num else 0)).sum := by
  unfold higherCeilingTime
  rw [foldl_add_if', zero_add]

theorem foldl_max_ge {α : Type} (c : α → Prop) [DecidablePred c] (f : α → ℕ) (l : List α) : ∀ a,
    a ≤ l.foldl (fun mx q => if c q ∧ f q > mx then f q else mx) a ∧
    ∀ x ∈ l, c x → f x ≤ l.foldl (fun mx q => if c q ∧ f q > mx then f q else mx) a := by
  induction l with
  | nil => intro a; simp
  | cons y l ih =>
    intro a
    rw [List.foldl_cons]
    have h1 := ih (if c y ∧ f y > a then f y else a)
    refine ⟨le_trans ?_ h1.1, ?_⟩
    · split_ifs with h
      · exact h.2.le
      · exact le_rfl
    · intro x hx hc
      rcases List.mem_cons.1 hx with rfl | hx
      · refine le_trans ?_ h1.1
        split_ifs with h
        · exact le_rfl
        · push Not at h; exact h hc
      · exact h1.2 x hx hc

theorem longestLower_ge {tsk t : TaskInfo} (ht : t ∈ info) (hlt : tsk.priority < t.priority) {q : Request}
    (hq : q ∈ t.requests) : q.length ≤ longestLower info tsk q.resId := by
  unfold longestLower
  have key : ∀ (l : List TaskInfo) (a : ℕ), a ≤ l.foldl (fun mx tx => if tx.priority > tsk.priority then
      tx.requests.foldl (fun mx q' => if q.resId = q'.resId ∧ q'.length > mx then q'.length else mx) mx
      else mx) a ∧ (t ∈ l → q.length ≤ l.foldl (fun mx tx => if tx.priority > tsk.priority then
      tx.requests.foldl (fun mx q' => if q.resId = q'.resId ∧ q'.length > mx then q'.length else mx) mx
      else mx) a) := by
    intro l
    induction l with
    | nil => intro a; simp
    | cons x l ih =>
      intro a
      rw [List.foldl_cons]
      have h1 := ih (if x.priority > tsk.priority then
        x.requests.foldl (fun mx q' => if q.resId = q'.resId ∧ q'.length > mx then q'.length else mx) a else a)
      have h2 := foldl_max_ge (fun q' : Request => q.resId = q'.resId) (fun q' => q'.length) x.requests a
      refine ⟨le_trans ?_ h1.1, fun hx => ?_⟩
      · split_ifs
        · exact h2.1
        · exact le_rfl
      · rcases List.mem_cons.1 hx with rfl | hx
        · refine le_trans ?_ h1.1
          rw [if_pos hlt]
          exact h2.2 q hq rfl
        · exact h1.2 hx
  exact (key info 0).2 ht

theorem directLower_eq (k : Fin info.length) :
    directLower info (info.get k) =
      (((system info).reqs k).map (fun q => longestLower info (info.get k) q.res * q.num)).sum := by
  unfold directLower
  have := foldl_add_if' (fun _ : Request => True) (fun q => longestLower info (info.get k) q.resId * q.num)
    (info.get k).requests 0
  simp only [if_true, zero_add] at this
  rw [this]
  show _ = (((info.get k).requests.map _).map _).sum
  rw [List.map_map]
  rfl

/-- The analysis is safe with any blocking terms that are not below those of the PIP. -/
theorem pip_core (B : TaskInfo → ℕ) (info : Info) (m : ℕ) (hm : 1 ≤ m) (fuel : ℕ) (noSlack : Bool)
    (hprio : ∀ i : Fin info.length, (info.get i).priority = i)
    (hT : ∀ t ∈ info, 0 < t.period ∧ t.deadline ≤ t.period)
    (hcost : ∀ t ∈ info, (t.requests.map (fun q => q.num * q.length)).sum ≤ t.cost)
    (hnd : ∀ t ∈ info, (t.requests.map (·.resId)).Nodup)
    (hB : ∀ t ∈ info, (pipBounds info m t).1 ≤ B t)
    (rs : List (GFp.FTask × ℤ))
    (h : GFp.bertogna fuel m (info.map (fun t => ⟨t.cost, t.period, t.deadline, some (B t),
      some (ihpDsr info t)⟩)) noSlack = some (true, rs))
    (hresp : ∀ i : Fin info.length, ∀ t r, rs[i.1]? = some (t, r) → r ≤ (info.get i).response)
    (i : Fin info.length) :
    ∃ t, ∃ R : ℕ, rs[i.1]? = some (t, (R : ℤ)) ∧ R ≤ (info.get i).deadline ∧
      ∀ run, Spec.Pip m (system info) run → ∀ q,
        Completed run.work run.sched (i, q) (run.work.release (i, q) + R) := by
  classical
  have hlen : (info.map (fun t => (⟨t.cost, t.period, t.deadline, some (B t),
      some (ihpDsr info t)⟩ : GFp.FTask))).length = info.length := by simp
  set S := system info with hS
  obtain ⟨E, hE⟩ := GFp.bertogna_facts hlen S.cost S.period S.deadline
    (fun i => B (info.get i)) (fun i => ihpDsr info (info.get i))
    (by intro i; simp [hS, system]) h
  have hR : ∀ i, E i ≤ (info.get i).response := fun i => by
    have := hresp i _ _ (hE i).1
    exact_mod_cast this
  have hpar : ∀ i, 0 < S.period i ∧ S.deadline i ≤ S.period i := fun i => hT _ (List.get_mem info i)
  have hCE : ∀ i, S.cost i ≤ E i := fun i => (Nat.le_add_right _ _).trans (hE i).2.1
  have hcs : ∀ i (P : ℕ → Prop),
      ((info.get i).requests.map (fun q => if P q.resId then q.length * q.num else 0)).sum ≤ S.deadline i :=
    fun i P => (reqs_sum_le _ P).trans ((hcost _ (List.get_mem info i)).trans ((hCE i).trans (hE i).2.2.1))
  -- a bound holds if deadlines have been met
  have hstep : ∀ k run, Spec.Pip m S run → ∀ q,
      BoundedBefore run.work run.sched S.deadline (run.work.release (k, q) + E k) →
      Completed run.work run.sched (k, q) (run.work.release (k, q) + E k) := by
    intro k
    induction k using WellFoundedLT.induction with
    | _ k ih =>
      intro run hrun q hb
      by_cases h0 : E k = 0
      · have h1 := hCE k
        have h2 := hrun.sporadic.wcet k q
        unfold Completed
        omega
      have hpred : ∀ p < q, Completed run.work run.sched (k, p) (run.work.release (k, q)) := by
        intro p hp
        have h1 := hrun.sporadic.separated k p
        have h2 := release_mono hrun.sporadic k (show p + 1 ≤ q from hp)
        have h3 := (hpar k).2
        exact (hb (k, p) (by simp only; omega)).mono (by simp only; omega)
      have hDB : ∀ N, ((range N).filter (LowBlocked S run (k, q))).card ≤ directLower info (info.get k) := by
        intro N
        rw [directLower_eq]
        refine hrun.low_le (k, q) N _ ?_
        intro i hi q' hq'
        obtain ⟨q2, hq2, rfl⟩ := mem_reqs.1 hq'
        exact longestLower_ge (List.get_mem info i) (by rw [hprio, hprio]; exact hi) hq2
      have hH : ∀ i < k, ((Ico (run.work.release (k, q)) (run.work.release (k, q) + E k)).filter
          (fun t => ∃ p, (i, p) ∈ run.sched t ∧ InSection S run (S.Uses k) (i, p) t)).card ≤
          gwork (commonSrTime (info.get k) (info.get i)) (info.get i).period
        ((info.get k).response + (info.get i).deadline - commonSrTime (info.get k) (info.get i)) := by
        intro i _
        have hx := commonSrTime_eq k i (hnd _ (List.get_mem info k))
        have hxD : commonSrTime (info.get k) (info.get i) ≤ S.deadline i := by
          rw [hx]; exact hcs i _
        refine (hrun.sections_busy (S.Uses k) (x := commonSrTime (info.get k) (info.get i)) (hpar i).1 ?_
          (hxD.trans (hpar i).2) hxD hb).trans (GFp.gwork_mono' _ ?_)
        · rw [hx, reqs_sum]
        · have := hR k
          show E k + (info.get i).deadline - _ ≤ _
          omega
      have hdsr := ihpDsr_eq hprio k
      obtain ⟨-, hEB, hED, hcase⟩ := hE k
      have htot : directLower info (info.get k) + ihpDsr info (info.get k) ≤
          B (info.get k) := by
        refine le_trans ?_ (hB _ (List.get_mem info k))
        unfold pipBounds
        simp only
        split_ifs <;> omega
      rcases hcase with hkm | hfix
      · refine hrun.top_step hkm _ hpred hDB hH ?_
        rw [← hdsr]
        omega
      · by_cases hkm : k.1 < m
        · refine hrun.top_step hkm _ hpred hDB hH ?_
          rw [← hdsr]
          omega
        have htot' : directLower info (info.get k) + ihpDsr info (info.get k) + ilp info (info.get k) m ≤
            B (info.get k) := by
          refine le_trans ?_ (hB _ (List.get_mem info k))
          unfold pipBounds
          simp only
          rw [if_pos (by rw [hprio]; omega)]
        refine hrun.step hm _ (fun i' => gwork (S.cost i') (S.period i')
            (E k + (if noSlack then S.deadline i' else E i') - S.cost i')) _
          (fun r => ceilingOf info r < (info.get k).priority) ?_ hpred hDB hH ?_ ?_ (ilp_ge hprio k hm) ?_
        · intro a ha r hu
          refine lt_of_le_of_lt (ceilingOf_le_of (b := a.1) ⟨a, hu, (hprio a).le⟩) ?_
          rw [hprio]
          exact ha
        · intro i hi
          beta_reduce
          rw [busySlots_eq_intf]
          set e := (if noSlack then S.deadline i else E i) with he
          have hCe : S.cost i ≤ e := by
            rw [he]; split_ifs
            · exact (hCE i).trans (hE i).2.2.1
            · exact hCE i
          have := wc_work (prio := fun _ => 0) (p := 0) (E := fun j => if j = i then e else
              run.work.release (k, q) + E k) hrun.sporadic hrun.valid (i := i) (hpar i).1
            ((hCE i).trans ((hE i).2.2.1.trans (hpar i).2)) (by simpa using hCe)
            (r := run.work.release (k, q)) (R := E k) (by
              rintro ⟨j, p⟩ hj
              by_cases hji : j = i
              · subst hji
                simp only [if_true] at hj ⊢
                rw [he] at hj ⊢
                split_ifs at hj ⊢
                · exact hb (j, p) hj
                · exact ih j hi run hrun p (hb.mono (by omega))
              · simp only [if_neg hji] at hj; omega)
          simpa using this
        · intro i hi
          have hx := higherCeilingTime_eq k i
          have hxD : higherCeilingTime info (info.get k) (info.get i) ≤ S.deadline i := by
            rw [hx]
            have := hcs i (fun r => ceilingOf info r < (info.get k).priority)
            convert this
          refine (hrun.sections_busy _ (x := higherCeilingTime info (info.get k) (info.get i)) (hpar i).1 ?_
            (hxD.trans (hpar i).2) hxD hb).trans (GFp.gwork_mono' _ ?_)
          · rw [hx]
            refine le_trans (le_of_eq ?_) (reqs_sum i (fun r => ceilingOf info r < (info.get k).priority)).le
            congr 1
            apply List.map_congr_left
            intro q' _
            congr
          · have := hR k
            show E k + (info.get i).deadline - _ ≤ _
            omega
        · rw [← hdsr]
          refine le_trans (Nat.add_le_add_right ?_ _) hfix.le
          omega
  -- deadlines are met
  refine ⟨_, E i, (hE i).1, (hE i).2.2.1, fun run hrun q => ?_⟩
  have key : ∀ d, BoundedBefore run.work run.sched S.deadline d := by
    intro d
    induction d with
    | zero => intro j hj; omega
    | succ d ihd =>
      rintro ⟨k, p⟩ hlt
      by_cases hd : run.work.release (k, p) + S.deadline k < d
      · exact ihd (k, p) hd
      · have := (hE k).2.2.1
        simp only at hlt hd ⊢
        exact (hstep k run hrun p (ihd.mono (by omega))).mono (by omega)
  exact hstep i run hrun q (key _)

/-- **C92**: if the analysis accepts the tasks, then in every run of the priority inheritance
protocol on `m` processors every job finishes within the reported response time, which is at most
its deadline.  The response times that were assumed for the blocking bounds must not be exceeded by
the computed ones; deadlines are always large enough. -/
theorem C92_pip_safe (info : Info) (m : ℕ) (hm : 1 ≤ m) (fuel : ℕ) (noSlack : Bool)
    (hprio : ∀ i : Fin info.length, (info.get i).priority = i)
    (hT : ∀ t ∈ info, 0 < t.period ∧ t.deadline ≤ t.period)
    (hcost : ∀ t ∈ info, (t.requests.map (fun q => q.num * q.length)).sum ≤ t.cost)
    (hnd : ∀ t ∈ info, (t.requests.map (·.resId)).Nodup)
    (rs : List (GFp.FTask × ℤ))
    (h : GFp.bertogna fuel m (afterPip info m) noSlack = some (true, rs))
    (hresp : ∀ i : Fin info.length, ∀ t r, rs[i.1]? = some (t, r) → r ≤ (info.get i).response)
    (i : Fin info.length) :
    ∃ t, ∃ R : ℕ, rs[i.1]? = some (t, (R : ℤ)) ∧ R ≤ (info.get i).deadline ∧
      ∀ run, Spec.Pip m (system info) run → ∀ q,
        Completed run.work run.sched (i, q) (run.work.release (i, q) + R) :=
  pip_core (fun t => (pipBounds info m t).1) info m hm fuel noSlack hprio hT hcost hnd (fun _ _ => le_rfl)
    rs h hresp i

/-- **C92**: in particular, if the blocking bounds assume that response times equal deadlines (or
more), then no deadline is missed. -/
theorem C92_pip_schedulable (info : Info) (m : ℕ) (hm : 1 ≤ m) (fuel : ℕ) (noSlack : Bool)
    (hprio : ∀ i : Fin info.length, (info.get i).priority = i)
    (hT : ∀ t ∈ info, 0 < t.period ∧ t.deadline ≤ t.period ∧ t.deadline ≤ t.response)
    (hcost : ∀ t ∈ info, (t.requests.map (fun q => q.num * q.length)).sum ≤ t.cost)
    (hnd : ∀ t ∈ info, (t.requests.map (·.resId)).Nodup)
    (rs : List (GFp.FTask × ℤ))
    (h : GFp.bertogna fuel m (afterPip info m) noSlack = some (true, rs))
    (run : LockRun info.length) (hrun : Spec.Pip m (system info) run) :
    MeetsDeadlines run.work (system info).deadline run.sched := by
  rintro ⟨i, q⟩
  have hlen : (afterPip info m).length = info.length := by unfold afterPip; simp
  obtain ⟨E, hE⟩ := GFp.bertogna_facts hlen (system info).cost (system info).period (system info).deadline
    (fun i => (pipBounds info m (info.get i)).1) (fun i => (pipBounds info m (info.get i)).2)
    (by intro i; unfold afterPip; simp [system]) h
  obtain ⟨t, R, -, h2, h3⟩ := C92_pip_safe info m hm fuel noSlack hprio
    (fun t ht => ⟨(hT t ht).1, (hT t ht).2.1⟩) hcost hnd rs h (by
      intro i t r hr
      rw [(hE i).1] at hr
      have e : (E i : ℤ) = r := congrArg Prod.snd (Option.some.inj hr)
      rw [← e]
      have h4 : E i ≤ (info.get i).deadline := (hE i).2.2.1
      have h5 := (hT _ (List.get_mem info i)).2.2
      exact_mod_cast h4.trans h5) i
  exact (h3 run hrun q).mono (Nat.add_le_add_left h2 _)

end Verif.SR.Pip
