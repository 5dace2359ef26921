/-
Response-time analysis for global EDF (`schedcat/sched/edf/rta.py`): safety and
termination.
-/
import Verif.Props.GlobalEdf
import Verif.Lemmas.GedfSteps

namespace Verif.GEdf
open Verif.Spec Finset

variable {ts : List ITask} {m : ℕ}

/-- The tasks annotated with slacks: `deadline - E`. -/
def stateOf (ts : List ITask) (E : Fin ts.length → ℕ) : List Slacked :=
  List.ofFn (fun i => (ts.get i, (deadlines ts i : ℤ) - E i))

theorem stateOf_init (ts : List ITask) : ts.map (fun t => (t, (0 : ℤ))) = stateOf ts (deadlines ts) := by
  unfold stateOf
  apply List.ext_getElem <;> simp

theorem stateOf_length (E : Fin ts.length → ℕ) : (stateOf ts E).length = ts.length := by
  simp [stateOf]

theorem stateOf_get (E : Fin ts.length → ℕ) (k : Fin ts.length) :
    (stateOf ts E)[k.1]? = some (ts.get k, (deadlines ts k : ℤ) - E k) := by
  simp [stateOf]

theorem stateOf_set (E : Fin ts.length → ℕ) (k : Fin ts.length) (R : ℕ) :
    (stateOf ts E).set k (ts.get k, (deadlines ts k : ℤ) - R) = stateOf ts (Function.update E k R) := by
  unfold stateOf
  apply List.ext_getElem
  · simp
  · intro i h1 h2
    simp only [List.getElem_set, List.getElem_ofFn]
    split_ifs with h
    · have : k = ⟨i, by simpa using h2⟩ := Fin.ext h
      rw [← this, Function.update_self]
    · rw [Function.update_of_ne]
      intro hc
      exact h (by rw [← hc])

theorem sum_erase_stateOf (E : Fin ts.length → ℕ) (k : Fin ts.length) (f : Slacked → ℤ) :
    (((stateOf ts E).eraseIdx k).map f).sum =
      ∑ i ∈ univ.erase k, f (ts.get i, (deadlines ts i : ℤ) - E i) := by
  have hk : (k : ℕ) < (stateOf ts E).length := by rw [stateOf_length]; exact k.2
  have hp : (stateOf ts E).Perm ((stateOf ts E)[k.1] :: (stateOf ts E).eraseIdx k) :=
    (List.getElem_cons_eraseIdx_perm hk).symm
  have h1 := (hp.map f).sum_eq
  have h2 : ((stateOf ts E).map f).sum = ∑ i, f (ts.get i, (deadlines ts i : ℤ) - E i) := by
    unfold stateOf
    rw [List.map_ofFn, List.sum_ofFn]
    rfl
  rw [← add_sum_erase univ _ (mem_univ k)] at h2
  have h3 : (stateOf ts E)[k.1] = (ts.get k, (deadlines ts k : ℤ) - E k) := by simp [stateOf]
  rw [h2, List.map_cons, List.sum_cons, h3] at h1
  exact (add_left_cancel h1).symm

/-- `response_estimate` over the natural numbers. -/
def estN (ts : List ITask) (m : ℕ) (E : Fin ts.length → ℕ) (k : Fin ts.length) (R : ℕ) : ℕ :=
  costs ts k + (∑ i ∈ univ.erase k, min (min (gwork (costs ts i) (periods ts i) (R + E i - costs ts i))
      (ework (costs ts i) (periods ts i) (deadlines ts i - E i) (deadlines ts k)))
      (R - costs ts k + 1)) / m

/-- Bounds between cost and deadline. -/
def Between (ts : List ITask) (E : Fin ts.length → ℕ) : Prop :=
  ∀ i, costs ts i ≤ E i ∧ E i ≤ deadlines ts i

theorem edfWork_eq (t : ITask) (e L : ℕ) (he : e ≤ t.deadline) :
    edfWork L (t, (t.deadline : ℤ) - e) = ework t.cost t.period (t.deadline - e) L := by
  unfold edfWork ework
  simp only
  push_cast
  congr 2
  have h := Nat.cast_sub (R := ℤ) he
  omega

theorem rtaWork_eq (t : ITask) (e R : ℕ) (hc : t.cost ≤ e) :
    rtaWork R (t, (t.deadline : ℤ) - e) = gwork t.cost t.period (R + e - t.cost) := by
  unfold rtaWork gwork
  have h : (R : ℤ) + t.deadline - t.cost - (t.deadline - e) = ((R + e - t.cost : ℕ) : ℤ) := by omega
  simp only [h]
  push_cast
  rfl

theorem responseEstimate_eq {E : Fin ts.length → ℕ} (hE : Between ts E) (k : Fin ts.length) {R : ℕ}
    (hR : costs ts k ≤ R) :
    responseEstimate (ts.get k) ((stateOf ts E).eraseIdx k) m R = estN ts m E k R := by
  unfold responseEstimate estN
  simp only
  rw [sum_erase_stateOf]
  have : ∀ i ∈ univ.erase k, min (min (rtaWork R (ts.get i, (deadlines ts i : ℤ) - E i))
      (edfWork (ts.get k).deadline (ts.get i, (deadlines ts i : ℤ) - E i)))
      ((R : ℤ) - (ts.get k).cost + 1) =
    ((min (min (gwork (costs ts i) (periods ts i) (R + E i - costs ts i))
      (ework (costs ts i) (periods ts i) (deadlines ts i - E i) (deadlines ts k)))
      (R - costs ts k + 1) : ℕ) : ℤ) := by
    intro i _
    push_cast
    congr 1
    · congr 1
      · exact rtaWork_eq _ _ _ (hE i).1
      · exact edfWork_eq _ _ _ (hE i).2
    · rw [Nat.cast_sub hR]; rfl
  rw [sum_congr rfl this]
  push_cast
  rfl

theorem cost_le_estN (E : Fin ts.length → ℕ) (k) (R : ℕ) : costs ts k ≤ estN ts m E k R :=
  Nat.le_add_right _ _

/-- A successful fixed-point search ends at a fixed point between cost and deadline. -/
theorem rtaLoop_spec {E : Fin ts.length → ℕ} (hE : Between ts E) (k : Fin ts.length) (minDelta : ℕ) :
    ∀ (fuel last : ℕ) (x : ℤ), costs ts k ≤ last →
    rtaLoop (ts.get k) ((stateOf ts E).eraseIdx k) m minDelta fuel last (estN ts m E k last) = some x →
    ∃ R : ℕ, x = R ∧ costs ts k ≤ R ∧ (R ≤ deadlines ts k → estN ts m E k R = R)
  | 0, last, x, hl, h => by simp [rtaLoop] at h
  | fuel + 1, last, x, hl, h => by
    unfold rtaLoop at h
    simp only at h
    split_ifs at h with hc hb
    · have e : min ((last : ℤ) + minDelta) ((ts.get k).deadline : ℤ) =
          ((min (last + minDelta) (deadlines ts k) : ℕ) : ℤ) := by push_cast; rfl
      have hge : costs ts k ≤ min (last + minDelta) (deadlines ts k) := by
        have := (hE k).1.trans (hE k).2
        omega
      rw [e, responseEstimate_eq hE k hge] at h
      exact rtaLoop_spec hE k minDelta fuel _ x hge h
    · have hge := cost_le_estN (m := m) E k last
      rw [responseEstimate_eq hE k hge] at h
      exact rtaLoop_spec hE k minDelta fuel _ x hge h
    · have hx : (estN ts m E k last : ℤ) = x := by simpa using h
      refine ⟨estN ts m E k last, hx.symm, cost_le_estN _ _ _, fun hd => ?_⟩
      by_contra hne
      apply hc
      refine ⟨?_, by have : ((ts.get k).deadline : ℤ) = (deadlines ts k : ℤ) := rfl
                     rw [this]; exact_mod_cast hd⟩
      intro he
      have he' : last = estN ts m E k last := by exact_mod_cast he
      exact hne (by rw [← he', ← he'])

theorem rtaFixpoint_spec {E : Fin ts.length → ℕ} (hE : Between ts E) (k : Fin ts.length) {minDelta fuel : ℕ}
    {x : ℤ} (h : rtaFixpoint fuel (ts.get k) ((stateOf ts E).eraseIdx k) m minDelta = some x) :
    ∃ R : ℕ, x = R ∧ costs ts k ≤ R ∧ (R ≤ deadlines ts k → estN ts m E k R = R) := by
  unfold rtaFixpoint at h
  have : ((ts.get k).cost : ℤ) = ((costs ts k : ℕ) : ℤ) := rfl
  rw [this, responseEstimate_eq hE k le_rfl] at h
  exact rtaLoop_spec hE k minDelta fuel _ x le_rfl h

/-- Vectors of bounds reached by the analysis. -/
abbrev Just (m : ℕ) (ts : List ITask) : (Fin ts.length → ℕ) → Prop :=
  Justified m (costs ts) (periods ts) (fun w => w.deadline (deadlines ts)) (deadlines ts)

abbrev Step (m : ℕ) (ts : List ITask) : (Fin ts.length → ℕ) → Fin ts.length → ℕ → Prop :=
  StepOK m (costs ts) (periods ts) (fun w => w.deadline (deadlines ts))

/-- The analysis has a proof that task `k` meets its deadlines. -/
def Passed (m : ℕ) (ts : List ITask) (k : Fin ts.length) : Prop :=
  ∃ E R, Just m ts E ∧ Step m ts E k R ∧ R ≤ deadlines ts k

/-- The state holds justified bounds. -/
def StateInv (m : ℕ) (ts : List ITask) (tasks : List Slacked) : Prop :=
  ∃ E, tasks = stateOf ts E ∧ Between ts E ∧ Just m ts E

theorem stateInv_init (hf : Feasible ts) : StateInv m ts (ts.map (fun t => (t, (0 : ℤ)))) :=
  ⟨deadlines ts, stateOf_init ts, fun i => ⟨hf.le i, le_rfl⟩, .init⟩

theorem between_update {E : Fin ts.length → ℕ} (hE : Between ts E) {k : Fin ts.length} {R : ℕ}
    (h1 : costs ts k ≤ R) (h2 : R ≤ deadlines ts k) : Between ts (Function.update E k R) := by
  intro i
  by_cases h : i = k
  · subst h; simp [h1, h2]
  · rw [Function.update_of_ne h]; exact hE i

theorem rtaStep_inv (hm : 0 < m) (hp : Proper ts) (hd : Constrained ts)
    {fuel minDelta : ℕ} {s s' : RoundState} (hs : StateInv m ts s.tasks) (k : Fin ts.length)
    (h : rtaStep fuel m minDelta s k = some s') :
    StateInv m ts s'.tasks ∧ (s'.ok = true → s.ok = true ∧ Passed m ts k) := by
  obtain ⟨E, hst, hE, hJ⟩ := hs
  unfold rtaStep at h
  rw [hst, stateOf_get] at h
  simp only [Option.map_eq_some_iff] at h
  obtain ⟨x, hx, hres⟩ := h
  obtain ⟨R, rfl, hCR, hfix⟩ := rtaFixpoint_spec hE k hx
  split_ifs at hres with h1 h2
  all_goals subst hres
  · have hRD : R ≤ deadlines ts k := by exact_mod_cast h1
    have hstep : Step m ts E k R := rta_step hm hp.period hd.le (fun i => (hE i).1) (fun i => (hE i).2)
      hCR hRD (hfix hRD).le
    refine ⟨⟨Function.update E k R, stateOf_set E k R, between_update hE hCR hRD, hJ.step hstep⟩, ?_⟩
    intro hok
    exact ⟨hok, E, R, hJ, hstep, hRD⟩
  · have hRD : R ≤ deadlines ts k := by exact_mod_cast h1
    have hstep : Step m ts E k R := rta_step hm hp.period hd.le (fun i => (hE i).1) (fun i => (hE i).2)
      hCR hRD (hfix hRD).le
    exact ⟨⟨E, hst, hE, hJ⟩, fun hok => ⟨hok, E, R, hJ, hstep, hRD⟩⟩
  · exact ⟨⟨E, rfl, hE, hJ⟩, fun hok => by simp at hok⟩

theorem rtaRound_inv (hm : 0 < m) (hp : Proper ts) (hd : Constrained ts) {fuel minDelta : ℕ} :
    ∀ (l : List ℕ) (s s' : RoundState), (∀ k ∈ l, k < ts.length) → StateInv m ts s.tasks →
    l.foldlM (rtaStep fuel m minDelta) s = some s' →
    StateInv m ts s'.tasks ∧ (s'.ok = true → s.ok = true ∧ ∀ k : Fin ts.length, k.1 ∈ l → Passed m ts k)
  | [], s, s', _, hs, h => by
    simp only [List.foldlM_nil, Option.pure_def, Option.some.injEq] at h
    subst h
    exact ⟨hs, fun h => ⟨h, by simp⟩⟩
  | a :: l, s, s', hl, hs, h => by
    simp only [List.foldlM_cons, Option.bind_eq_bind, Option.bind_eq_some_iff] at h
    obtain ⟨s1, h1, h2⟩ := h
    have ha := hl a List.mem_cons_self
    obtain ⟨hs1, ho1⟩ := rtaStep_inv hm hp hd hs ⟨a, ha⟩ h1
    obtain ⟨hs', ho'⟩ := rtaRound_inv hm hp hd l s1 s' (fun k hk => hl k (List.mem_cons_of_mem _ hk)) hs1 h2
    refine ⟨hs', fun hok => ?_⟩
    obtain ⟨g1, g2⟩ := ho' hok
    obtain ⟨g3, g4⟩ := ho1 g1
    refine ⟨g3, fun k hk => ?_⟩
    rcases List.mem_cons.1 hk with hk | hk
    · have : k = ⟨a, ha⟩ := Fin.ext hk
      rw [this]; exact g4
    · exact g2 k hk

theorem rtaRounds_inv (hm : 0 < m) (hp : Proper ts) (hd : Constrained ts) {fuel minDelta limit : ℕ} :
    ∀ (rounds round : ℕ) (s s' : RoundState), StateInv m ts s.tasks →
    (s.ok = true → ∀ k, Passed m ts k) →
    rtaRounds fuel m minDelta limit rounds round s = some s' →
    StateInv m ts s'.tasks ∧ (s'.ok = true → ∀ k, Passed m ts k)
  | 0, _, _, _, _, _, h => by simp [rtaRounds] at h
  | rounds + 1, round, s, s', hs, ho, h => by
    unfold rtaRounds at h
    split_ifs at h with hc
    · rw [Option.bind_eq_some_iff] at h
      obtain ⟨s1, h1, h2⟩ := h
      have hlen : s.tasks.length = ts.length := by
        obtain ⟨E, hE, _⟩ := hs
        rw [hE, stateOf_length]
      unfold rtaRound at h1
      obtain ⟨g1, g2⟩ := rtaRound_inv hm hp hd (List.range s.tasks.length) ⟨s.tasks, true, false⟩ s1
        (fun k hk => by rw [hlen] at hk; exact List.mem_range.1 hk) hs h1
      exact rtaRounds_inv hm hp hd rounds (round + 1) s1 s' g1 (fun hok k =>
        (g2 hok).2 k (by rw [hlen]; exact List.mem_range.2 k.2)) h2
    · simp only [Option.some.injEq] at h
      subst h
      exact ⟨hs, ho⟩

theorem rtaRun_inv (hm : 0 < m) (hp : Proper ts) (hd : Constrained ts) (hf : Feasible ts)
    {fuel limit minDelta : ℕ} {s : RoundState} (h : rtaRun fuel m ts limit minDelta = some s) :
    StateInv m ts s.tasks ∧ (s.ok = true → ∀ k, Passed m ts k) :=
  rtaRounds_inv hm hp hd _ _ _ _ (stateInv_init hf) (by simp) h

/-- If the response-time analysis accepts a set of feasible tasks with constrained
deadlines, no deadline is ever missed under global EDF. -/
theorem C20_rta_safe (m : ℕ) (ts : List ITask) (hm : 1 ≤ m) (hp : Proper ts)
    (hd : Constrained ts) (hf : Feasible ts) (fuel limit minStep : ℕ)
    (h : rta fuel m ts limit minStep = some true) : Schedulable m ts := by
  unfold rta at h
  rw [Option.map_eq_some_iff] at h
  obtain ⟨s, hs, hok⟩ := h
  intro w σ h1 h2 h3
  exact (justified_sound ((rtaRun_inv hm hp hd hf hs).2 hok) h1 h2 h3).1

/-- The response times computed for a set of feasible tasks with constrained deadlines
are upper bounds on the response time of every job in every global EDF schedule, and at
most the deadlines. -/
theorem C20_response_times_safe (m : ℕ) (ts : List ITask) (hm : 1 ≤ m) (hp : Proper ts)
    (hd : Constrained ts) (hf : Feasible ts) (fuel limit minStep : ℕ) (rs : List ℤ)
    (h : rtaBoundResponseTimes fuel m ts limit minStep = some (some rs)) :
    rs.length = ts.length ∧ ∀ (w : Workload ts.length) (σ : Schedule ts.length),
      w.Sporadic (costs ts) (periods ts) → ValidSchedule m w σ →
      PriorityDriven m w (w.deadline (deadlines ts)) σ →
      ∀ (i : Fin ts.length) (p : ℕ), ∃ R : ℕ, rs[i.1]? = some (R : ℤ) ∧ R ≤ deadlines ts i ∧
        Completed w σ (i, p) (w.release (i, p) + R) := by
  unfold rtaBoundResponseTimes at h
  rw [Option.map_eq_some_iff] at h
  obtain ⟨s, hs, hok⟩ := h
  split_ifs at hok with hok'
  obtain ⟨⟨E, hst, hE, hJ⟩, hpass⟩ := rtaRun_inv hm hp hd hf hs
  have hrs : rs = List.ofFn (fun i => (E i : ℤ)) := by
    simp only [Option.some.injEq] at hok
    rw [← hok, hst]
    unfold stateOf
    rw [List.map_ofFn]
    congr 1
    funext i
    simp [deadlines]
  subst hrs
  refine ⟨by simp, ?_⟩
  intro w σ h1 h2 h3 i p
  refine ⟨E i, by simp, (hE i).2, ?_⟩
  exact (justified_sound (hpass hok') h1 h2 h3).2 E hJ (i, p)

end Verif.GEdf
