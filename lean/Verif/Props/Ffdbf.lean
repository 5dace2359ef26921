/-
Property C88: the FF-DBF test (`schedcat/sched/edf/ffdbf.py` and
`native/src/edf/ffdbf.cpp`) accepts only task sets that meet all deadlines under global
EDF, and it ends.
-/
import Verif.Lemmas.Ffdbf
import Verif.Props.NativeGedf

namespace Verif.Ff
open Verif.Spec Finset

variable {pick : ℕ → (ℕ → ℚ) → ℕ}

/-! ### Windows of a miss -/

/-- What a deadline miss implies for the speeds up to a bound. -/
structure Windows {n : ℕ} (T D : Fin n → ℕ) (maxd bound timeBound : ℚ) (ok : ℚ → ℚ → Bool) (Q : ℚ → ℕ) : Prop where
  isDeadline : ∀ s, maxd ≤ s → s ≤ bound → 0 < s → ∃ i k, Q s = k * T i + D i
  inRange : ∀ s, maxd ≤ s → s ≤ bound → 0 < s → (Q s : ℚ) ≤ timeBound
  fails : ∀ s, maxd ≤ s → s ≤ bound → 0 < s → ok (Q s) s = false
  mono : ∀ s s', maxd ≤ s → s ≤ s' → s' ≤ bound → 0 < s → Q s ≤ Q s'

theorem windows {n m : ℕ} {C T D : Fin n → ℕ} (hT : ∀ i, 0 < T i) (hD : ∀ i, 0 < D i) (hDT : ∀ i, D i ≤ T i)
    (hm : 2 ≤ m) {maxd bound epsilon : ℚ} (he : 0 < epsilon) (hb1 : bound ≤ 1)
    (hb : bound ≤ (m - ∑ i, (C i : ℚ) / T i) / (m - 1) - epsilon) (hmax : ∀ i, (C i : ℚ) / D i ≤ maxd)
    {ok : ℚ → ℚ → Bool}
    (hok : ∀ (x : ℕ) (s : ℚ), 0 < s → (∀ i, (C i : ℚ) ≤ s * D i) →
      (ok x s = true ↔ ∑ i, ffDemand (C i) (T i) (D i) s x ≤ (m - (m - 1) * s) * x))
    (hmiss : ¬ EdfSchedulable m C T D) :
    ∃ Q, Windows T D maxd bound ((∑ i, (C i : ℚ)) / epsilon) ok Q := by
  obtain ⟨Q, hmono, hQ⟩ := ff_miss hT hD hDT (by omega) hmiss
  have hmq : (2 : ℚ) ≤ m := by exact_mod_cast hm
  have hC : ∀ s, maxd ≤ s → ∀ i, (C i : ℚ) ≤ s * D i := by
    intro s hs i
    have hDq : (0 : ℚ) < D i := by exact_mod_cast hD i
    have := (hmax i).trans hs
    rwa [div_le_iff₀ hDq] at this
  refine ⟨Q, ?_, ?_, ?_, ?_⟩
  · intro s h1 h2 h3
    exact (hQ s (hC s h1) h3.le (h2.trans hb1)).1
  · intro s h1 h2 h3
    have h4 := (hQ s (hC s h1) h3.le (h2.trans hb1)).2
    have h5 : ∑ i, ffDemand (C i) (T i) (D i) s (Q s) ≤ ∑ i, ((C i : ℚ) / T i * Q s + C i) :=
      sum_le_sum (fun i _ => ffDemand_le (hT i) (hDT i) h3.le (hC s h1 i))
    rw [sum_add_distrib, ← sum_mul] at h5
    rw [le_div_iff₀ he]
    have h6 : s + epsilon ≤ (m - ∑ i, (C i : ℚ) / T i) / (m - 1) := by linarith
    rw [le_div_iff₀ (by linarith)] at h6
    have h7 : epsilon ≤ m - (m - 1) * s - ∑ i, (C i : ℚ) / T i := by
      have : epsilon * 1 ≤ epsilon * (m - 1) := mul_le_mul_of_nonneg_left (by linarith) he.le
      linarith
    have h8 := mul_le_mul_of_nonneg_right h7 (by positivity : (0 : ℚ) ≤ Q s)
    linarith
  · intro s h1 h2 h3
    have h4 := (hQ s (hC s h1) h3.le (h2.trans hb1)).2
    rw [← Bool.not_eq_true, hok _ _ h3 (hC s h1)]
    exact not_le.2 h4
  · intro s s' h1 h2 h3 h4
    exact hmono s s' h2 (hC s h1) h4.le (h3.trans hb1)

/-- The step of the argument: the point at which a speed failed lies before the window of
the next speed. -/
theorem Windows.step {n : ℕ} {T D : Fin n → ℕ} {maxd bound timeBound : ℚ} {ok : ℚ → ℚ → Bool} {Q : ℚ → ℕ}
    (w : Windows T D maxd bound timeBound ok Q) (hq : IsQueue pick) {xs : ℕ → ℕ → ℚ} {fuel rounds : ℕ} {s tcur : ℚ}
    (hxs : ∀ i : Fin n, PointSeq (T i) (D i) tcur (xs i)) (hs1 : maxd ≤ s) (hs2 : s ≤ bound) (hs0 : 0 < s)
    (hcur : tcur < Q s) {r : Option ℚ}
    (h : scan pick fuel n xs timeBound (fun t => ok t s) rounds Merge.start = some r) :
    ∃ t, r = some t ∧ 0 ≤ t ∧ t ≤ timeBound ∧
      ∀ s', s ≤ s' → s' ≤ bound → ok t s' = true → t < Q s' := by
  obtain ⟨h1, h2⟩ := scan_spec hq (fun i hi => (hxs ⟨i, hi⟩).mono) h (good_start _)
  obtain ⟨i, k, hik⟩ := w.isDeadline s hs1 hs2 hs0
  have hlt := hcur
  rw [hik] at hlt
  obtain ⟨j, hj⟩ := (hxs i).cover k hlt
  rw [← hik] at hj
  obtain ⟨t, rfl, ht⟩ := h1 i i.2 j (by rw [hj]; exact w.fails s hs1 hs2 hs0) (by rw [hj]; exact w.inRange s hs1 hs2 hs0)
  obtain ⟨h3, h4, a, ha, b, hb⟩ := h2 t rfl
  refine ⟨t, rfl, ?_, h3, fun s' hs' hb' hok => ?_⟩
  · rw [hb]
    exact (by positivity : (0 : ℚ) ≤ ((b / 2 : ℕ) : ℚ)).trans ((hxs ⟨a, ha⟩).grow b)
  · have h5 := w.mono s s' hs1 hs' hb' hs0
    have h6 : t ≤ Q s' := by
      rw [hj] at ht
      exact ht.trans (by exact_mod_cast h5)
    refine lt_of_le_of_ne h6 (fun he => ?_)
    rw [he, w.fails s' (hs1.trans hs') hb' (by linarith)] at hok
    cases hok

/-! ### Python -/

theorem pyLoop_safe {ts : List GEdf.ITask} (hp : GEdf.Proper ts) (hd : GEdf.Constrained ts) (hq : IsQueue pick)
    {fuel m : ℕ} {maxd step bound timeBound : ℚ} (hstep : 0 < step) (hmax0 : 0 ≤ maxd) (hb1 : bound ≤ 1) {Q : ℚ → ℕ}
    (w : Windows (GEdf.periods ts) (GEdf.deadlines ts) maxd bound timeBound (pyWitness m ts) Q)
    {rounds : ℕ} {s : ℚ} {k : ℕ} {tcur : ℚ} (h0 : 0 ≤ tcur) (hk : s ≤ bound → s ≤ pySigma maxd step k)
    (hcur : maxd ≤ s → s ≤ bound → 0 < s → tcur < Q s)
    (h : pyLoop pick fuel m ts maxd step bound timeBound rounds s k tcur = some true) : False := by
  induction rounds generalizing s k tcur with
  | zero => cases h
  | succ rounds ih =>
    unfold pyLoop at h
    by_cases hr : maxd ≤ s ∧ s ≤ bound
    · rw [if_pos hr] at h
      by_cases hs0 : s = 0
      · rw [if_pos hs0] at h
        cases h
      rw [if_neg hs0] at h
      have hs : 0 < s := lt_of_le_of_ne (hmax0.trans hr.1) (Ne.symm hs0)
      obtain ⟨r, hr1, h⟩ := Option.bind_eq_some_iff.1 h
      obtain ⟨t, rfl, ht0, ht1, ht2⟩ := w.step hq (fun i => pyPoints_seq hp hd hs h0 i) hr.1 hr.2 hs
        (hcur hr.1 hr.2 hs) hr1
      obtain ⟨v, hv, h⟩ := Option.bind_eq_some_iff.1 h
      obtain ⟨-, hv1⟩ := pySearch_spec hstep hv
      refine ih ht0 ?_ ?_ h
      · intro hvb
        rcases hv1 with h2 | h2
        · rw [h2] at hvb
          linarith
        · exact h2.2.2.2.2.1
      · intro h3 h4 h5
        rcases hv1 with h2 | h2
        · rw [h2] at h4
          linarith
        · exact ht2 _ ((hk hr.2).trans h2.2.2.2.1) h4 h2.2.2.1
    · rw [if_neg hr] at h
      cases h

theorem maxDensity_spec {t : SporadicTask} {ts : TaskSystem} :
    (∀ x ∈ t :: ts, x.density ≤ maxDensity (t :: ts)) ∧ ∃ x ∈ t :: ts, maxDensity (t :: ts) = x.density := by
  have hmax : ∀ (l : TaskSystem) (d : ℚ), (∀ x ∈ l, x.density ≤ l.foldl (fun d t => max d t.density) d) ∧
      d ≤ l.foldl (fun d t => max d t.density) d ∧
      (l.foldl (fun d t => max d t.density) d = d ∨
        ∃ x ∈ l, l.foldl (fun d t => max d t.density) d = x.density) := by
    intro l
    induction l with
    | nil => intro d; simp
    | cons a l ih =>
      intro d
      obtain ⟨h1, h2, h3⟩ := ih (max d a.density)
      simp only [List.foldl_cons, List.mem_cons]
      refine ⟨?_, (le_max_left _ _).trans h2, ?_⟩
      · rintro x (rfl | hx)
        · exact (le_max_right _ _).trans h2
        · exact h1 x hx
      · rcases h3 with h3 | ⟨x, hx, h3⟩
        · rcases le_total d a.density with h | h
          · right; exact ⟨a, Or.inl rfl, by rw [h3, max_eq_right h]⟩
          · left; rw [h3, max_eq_left h]
        · right; exact ⟨x, Or.inr hx, h3⟩
  obtain ⟨h1, h2, h3⟩ := hmax ts t.density
  unfold maxDensity
  refine ⟨fun x hx => ?_, ?_⟩
  · rcases List.mem_cons.1 hx with rfl | hx
    · exact h2
    · exact h1 x hx
  · rcases h3 with h3 | ⟨x, hx, h3⟩
    · exact ⟨t, List.mem_cons_self, h3⟩
    · exact ⟨x, List.mem_cons_of_mem _ hx, h3⟩

theorem le_maxDensity {ts : List GEdf.ITask} (hd : GEdf.Constrained ts) (i : Fin ts.length) :
    (GEdf.costs ts i : ℚ) / GEdf.deadlines ts i ≤ maxDensity (GEdf.system ts) := by
  cases ts with
  | nil => exact i.elim0
  | cons t ts =>
    have h1 := (maxDensity_spec (t := t.toTask) (ts := GEdf.system ts)).1 (((t :: ts).get i).toTask) (by
      have : ((t :: ts).get i).toTask ∈ (t :: ts).map GEdf.ITask.toTask := List.mem_map_of_mem (List.get_mem _ i)
      simpa [GEdf.system] using this)
    refine le_trans (le_of_eq ?_) h1
    unfold SporadicTask.density GEdf.ITask.toTask GEdf.costs GEdf.deadlines
    simp only
    rw [min_eq_right (by exact_mod_cast hd.le i)]

theorem maxDensity_nonneg (ts : List GEdf.ITask) : 0 ≤ maxDensity (GEdf.system ts) := by
  cases ts with
  | nil => exact le_rfl
  | cons t ts =>
    obtain ⟨x, hx, he⟩ := (maxDensity_spec (t := t.toTask) (ts := GEdf.system ts)).2
    rw [show GEdf.system (t :: ts) = t.toTask :: GEdf.system ts from rfl, he]
    obtain ⟨y, hy, rfl⟩ := List.mem_map.1 (show x ∈ (t :: ts).map GEdf.ITask.toTask from hx)
    unfold SporadicTask.density GEdf.ITask.toTask
    positivity

theorem pyWitness_iff {ts : List GEdf.ITask} (hp : GEdf.Proper ts) (hd : GEdf.Constrained ts) (m x : ℕ) {s : ℚ}
    (hs : 0 < s) (hC : ∀ i, (GEdf.costs ts i : ℚ) ≤ s * GEdf.deadlines ts i) :
    pyWitness m ts x s = true ↔ ∑ i, ffDemand (GEdf.costs ts i) (GEdf.periods ts i) (GEdf.deadlines ts i) s x ≤
      (m - (m - 1) * s) * x := by
  unfold pyWitness
  rw [decide_eq_true_eq, GEdf.sum_map_eq,
    sum_congr rfl (fun i _ => pyDemand_eq (hp.period i) (hd.le i) hs (hC i) x)]
  rfl

theorem utilization_eq (ts : List GEdf.ITask) :
    TaskSystem.utilization (GEdf.system ts) = ∑ i, (GEdf.costs ts i : ℚ) / GEdf.periods ts i := by
  have e : TaskSystem.utilization (GEdf.system ts) = ((GEdf.system ts).map (·.utilization)).sum := rfl
  rw [e, GEdf.sum_system]
  rfl

/-- The first of the tasks with the earliest point. -/
def firstMin (n : ℕ) (cur : ℕ → ℚ) : ℕ := (List.range n).foldl (fun b i => if cur i < cur b then i else b) 0

theorem firstMin_isQueue : IsQueue firstMin := by
  intro n cur hn
  have key : ∀ l : List ℕ, ∀ b : ℕ, b < n → (∀ i ∈ l, i < n) →
      l.foldl (fun b i => if cur i < cur b then i else b) b < n ∧
      cur (l.foldl (fun b i => if cur i < cur b then i else b) b) ≤ cur b ∧
      ∀ i ∈ l, cur (l.foldl (fun b i => if cur i < cur b then i else b) b) ≤ cur i := by
    intro l
    induction l with
    | nil => intro b hb _; exact ⟨hb, le_rfl, by simp⟩
    | cons a l ih =>
      intro b hb hl
      rw [List.foldl_cons]
      by_cases h : cur a < cur b
      · rw [if_pos h]
        obtain ⟨h1, h2, h3⟩ := ih a (hl a List.mem_cons_self) (fun i hi => hl i (List.mem_cons_of_mem _ hi))
        refine ⟨h1, h2.trans h.le, fun i hi => ?_⟩
        rcases List.mem_cons.1 hi with rfl | hi
        · exact h2
        · exact h3 i hi
      · rw [if_neg h]
        obtain ⟨h1, h2, h3⟩ := ih b hb (fun i hi => hl i (List.mem_cons_of_mem _ hi))
        refine ⟨h1, h2, fun i hi => ?_⟩
        rcases List.mem_cons.1 hi with rfl | hi
        · exact h2.trans (not_lt.1 h)
        · exact h3 i hi
  obtain ⟨h1, _, h3⟩ := key (List.range n) 0 hn (fun i hi => List.mem_range.1 hi)
  exact ⟨h1, fun i hi => h3 i (List.mem_range.2 hi)⟩

/-- C88: if the Python version accepts a task set with deadlines that do not exceed the
periods, no deadline is missed, whatever the parameters of the search and the order of
equal points. -/
theorem C88_ffdbf_safe (pick : ℕ → (ℕ → ℚ) → ℕ) (hq : IsQueue pick) (fuel m : ℕ) (ts : List GEdf.ITask)
    (hp : GEdf.Proper ts) (hd : GEdf.Constrained ts) (epsilon : ℚ) (he : 0 < epsilon) (granularity : ℕ)
    (h : pyFfdbf pick fuel m ts epsilon granularity = some true) : GEdf.Schedulable m ts := by
  unfold pyFfdbf at h
  by_cases hne : ts.isEmpty = true
  · rw [List.isEmpty_iff.1 hne]
    intro w σ _ _ _ j
    exact j.1.elim0
  rw [if_neg hne] at h
  by_cases hm : m < 2
  · rw [if_pos hm] at h
    cases h
  rw [if_neg hm] at h
  by_cases h1 : epsilon = 0 ∨ granularity = 0
  · rw [if_pos h1] at h
    cases h
  rw [if_neg h1] at h
  simp only at h
  by_contra hmiss
  obtain ⟨Q, w⟩ := windows (maxd := maxDensity (GEdf.system ts)) (epsilon := epsilon) (ok := pyWitness m ts) hp.period hp.deadline hd.le
    (by omega) he (min_le_left _ _)
    ((min_le_right 1 (((m : ℚ) - TaskSystem.utilization (GEdf.system ts)) / ((m : ℚ) - 1) - epsilon)).trans
      (by rw [utilization_eq])) (le_maxDensity hd)
    (fun x s hs hC => pyWitness_iff hp hd m x hs hC) hmiss
  have hsum : (ts.map (fun t => (t.cost : ℚ))).sum = ∑ i, (GEdf.costs ts i : ℚ) := by
    rw [GEdf.sum_map_eq]
    rfl
  rw [hsum] at h
  have hg : (0 : ℚ) < 1 / (granularity : ℚ) := by
    have : 0 < granularity := by omega
    positivity
  refine pyLoop_safe hp hd hq hg (maxDensity_nonneg ts) (min_le_left _ _) w le_rfl ?_ ?_ h
  · intro _
    unfold pySigma
    have h2 := Int.lt_floor_add_one (maxDensity (GEdf.system ts) / (1 / (granularity : ℚ)))
    rw [div_lt_iff₀ hg] at h2
    push_cast
    linarith
  · intro h2 h3 h4
    obtain ⟨i, k, hik⟩ := w.isDeadline _ h2 h3 h4
    rw [hik]
    have := hp.deadline i
    exact_mod_cast (by omega : 0 < k * GEdf.periods ts i + GEdf.deadlines ts i)

/-! #### The test ends -/

example : IsQueue firstMin ∧ GEdf.Proper [⟨1, 20, 1⟩, ⟨1, 20, 2⟩, ⟨1, 20, 3⟩] ∧
    GEdf.Constrained [⟨1, 20, 1⟩, ⟨1, 20, 2⟩, ⟨1, 20, 3⟩] ∧
    pyFfdbf firstMin 100 2 [⟨1, 20, 1⟩, ⟨1, 20, 2⟩, ⟨1, 20, 3⟩] = some true :=
  ⟨firstMin_isQueue, by decide +kernel⟩

theorem pyLoop_ends {ts : List GEdf.ITask} (hne : ts ≠ []) (hp : GEdf.Proper ts) (hd : GEdf.Constrained ts)
    (hq : IsQueue pick) {fuel m : ℕ} {maxd step bound timeBound : ℚ} (hstep : 0 < step) (hmax0 : 0 < maxd)
    (hb1 : bound ≤ 1) {M : ℕ} (hM : ∀ k, M ≤ k → bound < pySigma maxd step k)
    (hf : ts.length * (2 * (⌈timeBound⌉.toNat + 1)) < fuel) (hf2 : M < fuel)
    {rounds : ℕ} {s : ℚ} {k : ℕ} {tcur : ℚ} (h0 : 0 ≤ tcur)
    (hr : (k ≤ M ∧ M - k + 2 ≤ rounds) ∨ (s = 2 ∧ 1 ≤ rounds)) :
    ∃ r, pyLoop pick fuel m ts maxd step bound timeBound rounds s k tcur = some r := by
  induction rounds generalizing s k tcur with
  | zero => omega
  | succ rounds ih =>
    unfold pyLoop
    by_cases hr1 : maxd ≤ s ∧ s ≤ bound
    · rw [if_pos hr1]
      have hs : 0 < s := by linarith
      rw [if_neg hs.ne']
      have hk : k ≤ M ∧ M - k + 2 ≤ rounds + 1 := by
        refine hr.resolve_right (fun h => ?_)
        have := hr1.2
        rw [h.1] at this
        linarith
      have hseq := fun i : Fin ts.length => pyPoints_seq (s := s) (minTime := tcur) hp hd hs h0 i
      obtain ⟨r, hsc⟩ := scan_ends (xs := pyPoints ts s tcur) (bound := timeBound) (fuel := fuel) (rounds := fuel)
        (ok := fun t => pyWitness m ts t s) (p := Merge.start) hq (List.length_pos_iff.2 hne)
        (K := 2 * (⌈timeBound⌉.toNat + 1)) (fun i hi j hj => (hseq ⟨i, hi⟩).bound hj)
        (fun l hl => by cases hl) (by rw [left_start]; exact hf) (by rw [left_start]; exact hf)
      rw [hsc]
      cases r with
      | none => exact ⟨_, rfl⟩
      | some t =>
        obtain ⟨-, h2⟩ := scan_spec hq (fun i hi => (hseq ⟨i, hi⟩).mono) hsc (good_start _)
        obtain ⟨h3, h4, a, ha, b, hb⟩ := h2 t rfl
        obtain ⟨v, hv⟩ := pySearch_ends (ok := fun s => pyWitness m ts t s) (fuel := fuel) (k := k) hM (by omega)
        obtain ⟨hv0, hv1⟩ := pySearch_spec hstep hv
        simp only [Option.bind_eq_bind, Option.bind_some, hv]
        refine ih ?_ ?_
        · rw [hb]
          exact (by positivity : (0 : ℚ) ≤ ((b / 2 : ℕ) : ℚ)).trans ((hseq ⟨a, ha⟩).grow b)
        · rcases hv1 with h5 | h5
          · exact Or.inr ⟨h5, by omega⟩
          · left
            have h6 : v.2 - 1 < M := by
              by_contra hc
              have := hM (v.2 - 1) (by omega)
              rw [← h5.2.2.2.2.2] at this
              linarith [h5.2.1]
            omega
    · rw [if_neg hr1]
      exact ⟨_, rfl⟩

/-- C88: the Python version ends, unless all costs are zero (then it divides by zero). -/
theorem C88_ffdbf_terminates (pick : ℕ → (ℕ → ℚ) → ℕ) (hq : IsQueue pick) (m : ℕ) (ts : List GEdf.ITask)
    (hp : GEdf.Proper ts) (hd : GEdf.Constrained ts) (hc : ∃ t ∈ ts, 0 < t.cost) (epsilon : ℚ) (he : 0 < epsilon)
    (granularity : ℕ) (hg : 0 < granularity) :
    ∃ N, ∀ fuel ≥ N, (pyFfdbf pick fuel m ts epsilon granularity).isSome := by
  obtain ⟨t0, ht0, hc0⟩ := hc
  have hne : ts ≠ [] := List.ne_nil_of_mem ht0
  set maxd := maxDensity (GEdf.system ts) with hmax
  have hmax0 : 0 < maxd := by
    obtain ⟨i, hi⟩ := List.get_of_mem ht0
    refine lt_of_lt_of_le ?_ (le_maxDensity hd i)
    have h1 : 0 < GEdf.costs ts i := by unfold GEdf.costs; rw [hi]; exact hc0
    have h2 := hp.deadline i
    positivity
  set timeBound : ℚ := (ts.map (fun t => (t.cost : ℚ))).sum / epsilon with htb
  have hgq : (0 : ℚ) < granularity := by exact_mod_cast hg
  have hstep : (0 : ℚ) < 1 / granularity := by positivity
  refine ⟨ts.length * (2 * (⌈timeBound⌉.toNat + 1)) + granularity + 2, fun fuel hfuel => ?_⟩
  unfold pyFfdbf
  rw [if_neg (by simpa using hne)]
  by_cases hm : m < 2
  · rw [if_pos hm]
    rfl
  rw [if_neg hm, if_neg (by rintro (h | h) <;> [exact he.ne' h; omega])]
  simp only [← hmax, ← htb]
  obtain ⟨r, hr⟩ := pyLoop_ends (pick := pick) (fuel := fuel) (m := m) (maxd := maxd) (step := 1 / granularity)
    (bound := min 1 (((m : ℚ) - TaskSystem.utilization (GEdf.system ts)) / ((m : ℚ) - 1) - epsilon))
    (timeBound := timeBound) (M := granularity) (rounds := fuel) (s := maxd) (k := 0) (tcur := 0)
    hne hp hd hq hstep hmax0 (min_le_left _ _) (fun k hk => by
      refine lt_of_le_of_lt (min_le_left _ _) ?_
      unfold pySigma
      have h1 : 0 ≤ ⌊maxd / (1 / (granularity : ℚ))⌋ := Int.floor_nonneg.2 (by positivity)
      have h2 : (0 : ℚ) ≤ ⌊maxd / (1 / (granularity : ℚ))⌋ := by exact_mod_cast h1
      have h3 : (0 : ℚ) ≤ 1 / granularity * ⌊maxd / (1 / (granularity : ℚ))⌋ := mul_nonneg hstep.le h2
      have h4 : (granularity : ℚ) * (1 / granularity) ≤ k * (1 / granularity) :=
        mul_le_mul_of_nonneg_right (by exact_mod_cast hk) hstep.le
      rw [mul_one_div_cancel hgq.ne'] at h4
      linarith) (by omega) (by omega) le_rfl (Or.inl (by omega))
  rw [hr]
  rfl

example : GEdf.Proper [⟨2, 4, 3⟩, ⟨2, 5, 5⟩] ∧ GEdf.Constrained [⟨2, 4, 3⟩, ⟨2, 5, 5⟩] := by decide +kernel

/-- C88: a set whose costs are all zero is not analysed; the division by the maximum
density fails. -/
theorem C88_zero_costs (pick : ℕ → (ℕ → ℚ) → ℕ) (fuel m : ℕ) (ts : List GEdf.ITask) (hne : ts ≠ []) (hm : 2 ≤ m)
    (hc : ∀ t ∈ ts, t.cost = 0) : pyFfdbf pick fuel m ts = none := by
  have hmax : maxDensity (GEdf.system ts) = 0 := by
    obtain ⟨t, rest, rfl⟩ := List.exists_cons_of_ne_nil hne
    obtain ⟨x, hx, he⟩ := (maxDensity_spec (t := t.toTask) (ts := GEdf.system rest)).2
    rw [show GEdf.system (t :: rest) = t.toTask :: GEdf.system rest from rfl, he]
    obtain ⟨y, hy, rfl⟩ := List.mem_map.1 (show x ∈ (t :: rest).map GEdf.ITask.toTask from hx)
    unfold SporadicTask.density GEdf.ITask.toTask
    simp [hc y hy]
  have hU : TaskSystem.utilization (GEdf.system ts) = 0 := by
    rw [utilization_eq]
    refine sum_eq_zero (fun i _ => ?_)
    have := hc _ (List.get_mem ts i)
    unfold GEdf.costs
    rw [this]
    simp
  unfold pyFfdbf
  rw [if_neg (by simpa using hne), if_neg (by omega), if_neg (by norm_num)]
  simp only [hmax, hU]
  cases fuel with
  | zero => rfl
  | succ fuel =>
    unfold pyLoop
    have hmq : (2 : ℚ) ≤ m := by exact_mod_cast hm
    have h1 : (1 : ℚ) ≤ ((m : ℚ) - 0) / ((m : ℚ) - 1) := by
      rw [le_div_iff₀ (by linarith)]
      linarith
    rw [if_pos ⟨le_rfl, le_min (by norm_num) (by linarith)⟩, if_pos rfl]

/-! ### C++ -/

theorem cppLoop_safe {ts : Native.TaskSet} (hp : Native.Plain ts) (hq : IsQueue pick)
    {fuel m : ℕ} {maxd step bound timeBound : ℚ} (hstep : 0 < step) (hmax0 : 0 < maxd) {Q : ℚ → ℕ}
    (w : Windows (fun i => (ts.get i).period) (fun i => (ts.get i).deadline) maxd bound timeBound (cppWitness m ts) Q)
    {rounds : ℕ} {s nxt tcur : ℚ} (hs : maxd ≤ s) (hn : s ≤ nxt) (h0 : 0 ≤ tcur) (hcur : s ≤ bound → tcur < Q s)
    (h : cppLoop pick fuel m ts step bound timeBound rounds s nxt tcur = some true) : False := by
  induction rounds generalizing s nxt tcur with
  | zero => cases h
  | succ rounds ih =>
    unfold cppLoop at h
    by_cases hr : s ≤ bound ∧ tcur ≤ timeBound
    · rw [if_pos hr] at h
      have hs0 : 0 < s := by linarith
      rw [if_neg (fun hc => hs0.ne' hc.1)] at h
      obtain ⟨ps, hps, h⟩ := Option.bind_eq_some_iff.1 h
      obtain ⟨r, hr1, h⟩ := Option.bind_eq_some_iff.1 h
      have hseq := fun i : Fin ts.length => cppPoints_seq hps hs0 h0 i
        (by have := hp _ (List.get_mem ts i); omega) (hp _ (List.get_mem ts i)).2.2
      obtain ⟨t, rfl, ht0, ht1, ht2⟩ := w.step hq hseq hs hr.1 hs0 (hcur hr.1) hr1
      obtain ⟨v, hv, h⟩ := Option.bind_eq_some_iff.1 h
      obtain ⟨h2, h3, h4⟩ := cppSearch_spec hstep hv
      exact ih (by linarith) (by linarith) ht0 (fun hb => ht2 _ (by linarith) hb (h4 hb)) h
    · rw [if_neg hr] at h
      cases h

theorem cppLoop_ends {ts : Native.TaskSet} (hne : ts ≠ []) (hp : Native.Plain ts) (hq : IsQueue pick)
    {fuel m : ℕ} {step bound timeBound : ℚ} (hstep : 0 < step) {M : ℕ}
    (hf : ts.length * (2 * (⌈timeBound⌉.toNat + 1)) < fuel) (hf2 : M < fuel) (hf3 : 2 < fuel)
    {rounds j : ℕ} {s nxt tcur : ℚ} (hs0 : 0 < s) (hn : s ≤ nxt) (h0 : 0 ≤ tcur) (hjM : j ≤ M)
    (hr : (bound < nxt + j * step ∧ j + 2 ≤ rounds) ∨ (bound < s ∧ 1 ≤ rounds)) :
    ∃ r, cppLoop pick fuel m ts step bound timeBound rounds s nxt tcur = some r := by
  induction rounds generalizing s nxt tcur j with
  | zero => omega
  | succ rounds ih =>
    unfold cppLoop
    by_cases hr1 : s ≤ bound ∧ tcur ≤ timeBound
    · rw [if_pos hr1, if_neg (fun hc => hs0.ne' hc.1)]
      have hj : bound < nxt + j * step ∧ j + 2 ≤ rounds + 1 := by
        refine hr.resolve_right (fun h => ?_)
        linarith [h.1, hr1.1]
      obtain ⟨ps, hps⟩ := mapM_ends (f := fun t => TestPoints.init fuel t s tcur) (l := ts)
        (fun t ht => init_ends (by have := hp t ht; omega) h0 hf3)
      have hseq := fun i : Fin ts.length => cppPoints_seq hps hs0 h0 i
        (by have := hp _ (List.get_mem ts i); omega) (hp _ (List.get_mem ts i)).2.2
      obtain ⟨r, hsc⟩ := scan_ends (xs := cppPoints ps) (bound := timeBound) (fuel := fuel) (rounds := fuel)
        (ok := fun t => cppWitness m ts t s) (p := Merge.start) hq (List.length_pos_iff.2 hne)
        (K := 2 * (⌈timeBound⌉.toNat + 1)) (fun i hi k hk => (hseq ⟨i, hi⟩).bound hk)
        (fun l hl => by cases hl) (by rw [left_start]; exact hf) (by rw [left_start]; exact hf)
      rw [hps]
      simp only [Option.bind_eq_bind, Option.bind_some]
      rw [hsc]
      cases r with
      | none => exact ⟨_, rfl⟩
      | some t =>
        obtain ⟨-, h2⟩ := scan_spec hq (fun i hi => (hseq ⟨i, hi⟩).mono) hsc (good_start _)
        obtain ⟨h3, h4, a, ha, b, hb⟩ := h2 t rfl
        obtain ⟨v, hv⟩ := cppSearch_ends (ok := fun s => cppWitness m ts t s) (fuel := fuel) hj.1 (by omega)
        obtain ⟨hv1, hv2, hv3⟩ := cppSearch_spec hstep hv
        simp only [Option.bind_some, hv]
        have ht0 : 0 ≤ t := by
          rw [hb]
          exact (by positivity : (0 : ℚ) ≤ ((b / 2 : ℕ) : ℚ)).trans ((hseq ⟨a, ha⟩).grow b)
        by_cases hvb : bound < v.1
        · exact ih (j := 0) (by linarith) (by linarith) ht0 (by omega) (Or.inr ⟨hvb, by omega⟩)
        · cases j with
          | zero =>
            exfalso
            have := hj.1
            rw [Nat.cast_zero, zero_mul, add_zero] at this
            exact hvb (by linarith)
          | succ j =>
            refine ih (j := j) (by linarith) (by linarith) ht0 (by omega) (Or.inl ⟨?_, by omega⟩)
            have := hj.1
            push_cast at this
            linarith
    · rw [if_neg hr1]
      exact ⟨_, rfl⟩

theorem le_cppMaxDensity (ts : Native.TaskSet) : 0 ≤ ts.maxDensity ∧ ∀ t ∈ ts, t.density ≤ ts.maxDensity := by
  have key : ∀ (l : Native.TaskSet) (d : ℚ), d ≤ l.foldl (fun d t => max d t.density) d ∧
      ∀ t ∈ l, t.density ≤ l.foldl (fun d t => max d t.density) d := by
    intro l
    induction l with
    | nil => intro d; simp
    | cons a l ih =>
      intro d
      obtain ⟨h1, h2⟩ := ih (max d a.density)
      rw [List.foldl_cons]
      refine ⟨(le_max_left _ _).trans h1, fun t ht => ?_⟩
      rcases List.mem_cons.1 ht with rfl | ht
      · exact (le_max_right _ _).trans h1
      · exact h2 t ht
  exact key ts 0

theorem cppMaxDensity_pos {ts : Native.TaskSet} (hp : Native.Plain ts) (hne : ts ≠ []) : 0 < ts.maxDensity := by
  obtain ⟨t, rest, rfl⟩ := List.exists_cons_of_ne_nil hne
  refine lt_of_lt_of_le ?_ ((le_cppMaxDensity (t :: rest)).2 t List.mem_cons_self)
  obtain ⟨h1, h2, -⟩ := hp t List.mem_cons_self
  unfold Native.Task.density
  have : 0 < t.deadline := by omega
  positivity

theorem cppWitness_iff {ts : Native.TaskSet} (hp : Native.Plain ts) (m x : ℕ) {s : ℚ}
    (hs : 0 < s) (hC : ∀ i : Fin ts.length, ((ts.get i).wcet : ℚ) ≤ s * (ts.get i).deadline) :
    cppWitness m ts x s = true ↔ ∑ i : Fin ts.length, ffDemand (ts.get i).wcet (ts.get i).period (ts.get i).deadline s x ≤
      (m - (m - 1) * s) * x := by
  unfold cppWitness
  have e : (-((m : ℚ) - 1) * s + m) * x = (m - (m - 1) * s) * x := by ring
  rw [decide_eq_true_eq, GEdf.sum_map_eq, e, sum_congr rfl (fun i _ => cppDemand_eq
    (by have := hp _ (List.get_mem ts i); omega) (hp _ (List.get_mem ts i)).2.2 hs (hC i) x)]

theorem cppCore_safe {ts : Native.TaskSet} (hp : Native.Plain ts) (hq : IsQueue pick) {fuel m e g : ℕ} (hm : 2 ≤ m)
    (h : cppCore pick fuel m ts e g = some true) : Native.Safe m ts := by
  by_cases hne : ts = []
  · subst hne
    exact Native.safe_nil
  unfold cppCore at h
  by_cases h1 : e = 0 ∨ g = 0
  · rw [if_pos h1] at h
    cases h
  rw [if_neg h1] at h
  simp only at h
  by_contra hmiss
  have heq : (0 : ℚ) < 1 / (e : ℚ) := by
    have : 0 < e := by omega
    positivity
  have hgq : (0 : ℚ) < 1 / (g : ℚ) := by
    have : 0 < g := by omega
    positivity
  have hU : ts.utilization = ∑ i : Fin ts.length, ((ts.get i).wcet : ℚ) / (ts.get i).period := by
    unfold Native.TaskSet.utilization
    rw [GEdf.sum_map_eq]
    rfl
  have hsum : (ts.map (fun t => (t.wcet : ℚ))).sum = ∑ i : Fin ts.length, ((ts.get i).wcet : ℚ) := by
    rw [GEdf.sum_map_eq]
  have hbound : (ts.utilization - m) / -((m : ℚ) - 1) - 1 / e =
      (m - ∑ i : Fin ts.length, ((ts.get i).wcet : ℚ) / (ts.get i).period) / (m - 1) - 1 / e := by
    rw [← hU, div_neg, ← neg_div, neg_sub]
  rw [hbound, hsum] at h
  obtain ⟨Q, w⟩ := windows (m := m) (C := fun i : Fin ts.length => (ts.get i).wcet) (T := fun i => (ts.get i).period)
    (D := fun i => (ts.get i).deadline) (maxd := ts.maxDensity) (epsilon := 1 / (e : ℚ)) (ok := cppWitness m ts)
    (fun i => by have := hp _ (List.get_mem ts i); omega) (fun i => by have := hp _ (List.get_mem ts i); omega)
    (fun i => (hp _ (List.get_mem ts i)).2.2) hm heq (min_le_right _ _) (min_le_left _ _)
    (fun i => (le_cppMaxDensity ts).2 _ (List.get_mem ts i))
    (fun x s hs hC => cppWitness_iff hp m x hs hC) hmiss
  have hmax0 := cppMaxDensity_pos hp hne
  refine cppLoop_safe hp hq hgq hmax0 w le_rfl ?_ le_rfl ?_ h
  · have h2 : 0 ≤ ts.maxDensity / (1 / (g : ℚ)) := by positivity
    have h3 := Int.lt_floor_add_one (ts.maxDensity / (1 / (g : ℚ)))
    rw [div_lt_iff₀ hgq] at h3
    unfold trunc
    rw [if_pos h2]
    exact h3.le
  · intro h3
    obtain ⟨i, k, hik⟩ := w.isDeadline _ le_rfl h3 hmax0
    rw [hik]
    have := hp _ (List.get_mem ts i)
    exact_mod_cast (by omega : 0 < k * (ts.get i).period + (ts.get i).deadline)

theorem cppCore_ends {ts : Native.TaskSet} (hne : ts ≠ []) (hp : Native.Plain ts) (hq : IsQueue pick) {m e g : ℕ}
    (he : 0 < e) (hg : 0 < g) : ∃ N, ∀ fuel ≥ N, (cppCore pick fuel m ts e g).isSome := by
  set timeBound : ℚ := (ts.map (fun t => (t.wcet : ℚ))).sum / (1 / (e : ℚ)) with htb
  have hgq : (0 : ℚ) < g := by exact_mod_cast hg
  have hstep : (0 : ℚ) < 1 / (g : ℚ) := by positivity
  have hmax0 := cppMaxDensity_pos hp hne
  have h2 : 0 ≤ ts.maxDensity / (1 / (g : ℚ)) := by positivity
  have htr : trunc (ts.maxDensity / (1 / (g : ℚ))) = ⌊ts.maxDensity / (1 / (g : ℚ))⌋ := by
    unfold trunc
    rw [if_pos h2]
  have h3 := Int.lt_floor_add_one (ts.maxDensity / (1 / (g : ℚ)))
  rw [div_lt_iff₀ hstep] at h3
  refine ⟨ts.length * (2 * (⌈timeBound⌉.toNat + 1)) + g + 3, fun fuel hfuel => ?_⟩
  unfold cppCore
  rw [if_neg (by omega)]
  simp only [← htb]
  obtain ⟨r, hr⟩ := cppLoop_ends (pick := pick) (fuel := fuel) (m := m) (step := 1 / (g : ℚ))
    (bound := min ((ts.utilization - m) / -((m : ℚ) - 1) - 1 / e) 1) (timeBound := timeBound) (M := g) (rounds := fuel)
    (j := g) (s := ts.maxDensity) (nxt := (trunc (ts.maxDensity / (1 / (g : ℚ))) + 1) * (1 / (g : ℚ))) (tcur := 0)
    hne hp hq hstep (by omega) (by omega) (by omega) hmax0 (by rw [htr]; exact h3.le) le_rfl le_rfl
    (Or.inl ⟨by
      refine lt_of_le_of_lt (min_le_right _ _) ?_
      rw [htr, mul_one_div_cancel hgq.ne']
      linarith, by omega⟩)
  rw [hr]
  rfl

/-- C88: if the native version accepts a task set, no deadline is missed, whatever the
parameters of the search and the order of equal points. -/
theorem C88_native_safe (pick : ℕ → (ℕ → ℚ) → ℕ) (hq : IsQueue pick) (fuel m : ℕ) (ts : Native.TaskSet)
    (epsilonDenom granularity : ℕ) (h : cppFfdbf pick fuel m ts true epsilonDenom granularity = some true) :
    Native.Safe m ts := by
  unfold cppFfdbf at h
  by_cases hm : m < 2
  · rw [if_pos hm] at h
    cases h
  rw [if_neg hm] at h
  by_cases hpre : Native.preconditions m ts = true
  · unfold Native.preconditions at hpre
    rw [hpre] at h
    exact cppCore_safe (Native.pre_split hpre).1 hq (by omega) h
  · unfold Native.preconditions at hpre
    simp [hpre] at h

example : cppFfdbf firstMin 100 2 [.init 1 20 1, .init 1 20 2, .init 1 20 3] = some true := by decide +kernel

/-- C88: the native version ends on every task set that is not empty. -/
theorem C88_native_terminates (pick : ℕ → (ℕ → ℚ) → ℕ) (hq : IsQueue pick) (m : ℕ) (ts : Native.TaskSet)
    (hne : ts ≠ []) (epsilonDenom granularity : ℕ) (he : 0 < epsilonDenom) (hg : 0 < granularity) :
    ∃ N, ∀ fuel ≥ N, (cppFfdbf pick fuel m ts true epsilonDenom granularity).isSome := by
  by_cases hpre : Native.preconditions m ts = true
  · obtain ⟨N, hN⟩ := cppCore_ends (pick := pick) (m := m) hne (Native.pre_split hpre).1 hq he hg
    refine ⟨N, fun fuel hf => ?_⟩
    unfold cppFfdbf
    unfold Native.preconditions at hpre
    by_cases hm : m < 2
    · rw [if_pos hm]
      rfl
    · rw [if_neg hm, hpre]
      exact hN fuel hf
  · refine ⟨0, fun fuel _ => ?_⟩
    unfold cppFfdbf
    unfold Native.preconditions at hpre
    by_cases hm : m < 2
    · rw [if_pos hm]
      rfl
    · rw [if_neg hm, if_pos (by simp [hpre])]
      rfl

/-- C88: on the empty set the native version takes an element from an empty queue. -/
theorem C88_native_empty (pick : ℕ → (ℕ → ℚ) → ℕ) (fuel m : ℕ) (hm : 2 ≤ m) : cppFfdbf pick fuel m [] = none := by
  have hmq : (2 : ℚ) ≤ m := by exact_mod_cast hm
  unfold cppFfdbf
  rw [if_neg (by omega), if_neg (by
    simp [Native.TaskSet.hasOnlyFeasibleTasks, Native.TaskSet.isNotOverutilized, Native.TaskSet.utilization,
      Native.TaskSet.hasOnlyConstrainedDeadlines, Native.TaskSet.hasNoSelfSuspendingTasks])]
  unfold cppCore
  rw [if_neg (by norm_num)]
  cases fuel with
  | zero => rfl
  | succ fuel =>
    have h1 : (1 : ℚ) ≤ (0 - (m : ℚ)) / -((m : ℚ) - 1) := by
      rw [zero_sub, neg_div_neg_eq, le_div_iff₀ (by linarith)]
      linarith
    have h2 : (0 : ℚ) ≤ min ((0 - (m : ℚ)) / -((m : ℚ) - 1) - 1 / 10) 1 := le_min (by linarith) (by norm_num)
    unfold cppLoop
    simp only [Native.TaskSet.maxDensity, Native.TaskSet.utilization, List.foldl_nil, List.map_nil, List.sum_nil]
    rw [if_pos ⟨by exact_mod_cast h2, by norm_num⟩, if_neg (by simp)]
    rfl

/-! ### The combined tests with `want_ffdbf` -/

/-- C88: `is_schedulable_py` with `want_ffdbf=True` is safe for feasible tasks with
deadlines that do not exceed the periods. -/
theorem C88_combined_safe (pick : ℕ → (ℕ → ℚ) → ℕ) (hq : IsQueue pick) (fuel m : ℕ) (ts : List GEdf.ITask)
    (hp : GEdf.Proper ts) (hd : GEdf.Constrained ts) (hf : GEdf.Feasible ts) (step : ℕ) (want : GEdf.WantBaruah)
    (wantRta : Bool)
    (h : GEdf.isSchedulablePy fuel m ts step want wantRta (pyFfdbf pick fuel m ts) = some true) :
    GEdf.Schedulable m ts := by
  by_cases hr : GEdf.isSchedulablePy fuel m ts step want wantRta = some true
  · exact GEdf.C57_is_schedulable_py_safe m ts hp hd hf fuel step want wantRta hr
  rcases GEdf.isSchedulablePy_cases h with ⟨rfl, h1⟩ | ⟨hm, hb | ⟨-, hb | hb | hb | hb⟩⟩
  · refine GEdf.C57_is_schedulable_py_safe_uni ts hp fuel step want wantRta ?_
    unfold GEdf.isSchedulablePy at h ⊢
    simp only [h1, and_self, if_true] at h ⊢
    exact h
  · exact GEdf.C54_bak_safe m ts hm.le hp hd hb
  · exact GEdf.C15_gfb_safe m ts hm.le hp hb
  · exact GEdf.C56_bar_safe m ts hm.le hp hf hb
  · exact GEdf.C20_rta_safe m ts hm.le hp hd hf _ _ _ hb
  · exact C88_ffdbf_safe pick hq fuel m ts hp hd _ (by norm_num) _ hb

/-- A set that the FF-DBF test accepts, but not the density test and Baker's test. -/
def ffSample : List GEdf.ITask := [⟨1, 20, 1⟩, ⟨1, 20, 2⟩, ⟨1, 20, 3⟩]

example : IsQueue firstMin ∧ GEdf.Proper ffSample ∧ GEdf.Constrained ffSample ∧ GEdf.Feasible ffSample ∧
    GEdf.isSchedulablePy 100 2 ffSample 1 .never false (pyFfdbf firstMin 100 2 ffSample) = some true ∧
    GEdf.isSchedulablePy 100 2 ffSample 1 .never false = some false :=
  ⟨firstMin_isQueue, by decide +kernel⟩

/-- C88: `is_schedulable_py` with `want_ffdbf=True` ends on every set of feasible tasks. -/
theorem C88_combined_terminates (pick : ℕ → (ℕ → ℚ) → ℕ) (hq : IsQueue pick) (m : ℕ) (ts : List GEdf.ITask)
    (hp : GEdf.Proper ts) (hf : GEdf.Feasible ts) (step : ℕ) (want : GEdf.WantBaruah) (wantRta : Bool) :
    ∃ N, ∀ fuel ≥ N, (GEdf.isSchedulablePy fuel m ts step want wantRta (pyFfdbf pick fuel m ts)).isSome := by
  obtain ⟨N, hN⟩ := GEdf.C57_is_schedulable_py_terminates m ts hp hf step want wantRta
  have hpass : ∀ fuel, (GEdf.isSchedulablePy fuel m ts step want wantRta).isSome →
      ((GEdf.system ts).onlyConstrainedDeadlines = true → m > 1 → GEdf.gfb m (GEdf.system ts) ≠ true →
        (pyFfdbf pick fuel m ts).isSome) →
      (GEdf.isSchedulablePy fuel m ts step want wantRta (pyFfdbf pick fuel m ts)).isSome := by
    intro fuel h1 h2
    unfold GEdf.isSchedulablePy at h1 ⊢
    simp only at h1 ⊢
    by_cases c0 : (decide (TaskSystem.utilization (GEdf.system ts) > m) ||
        !ts.all (fun t => decide (t.period ≥ t.cost))) = true
    · rw [if_pos c0]; rfl
    rw [if_neg c0] at h1 ⊢
    by_cases c1 : m = 1 ∧ TaskSystem.density (GEdf.system ts) ≤ 1
    · rw [if_pos c1]; rfl
    rw [if_neg c1] at h1 ⊢
    by_cases c2 : m > 1
    · rw [if_pos c2] at h1 ⊢
      by_cases c3 : GEdf.bak m (GEdf.system ts) = true
      · rw [if_pos c3]; rfl
      rw [if_neg c3] at h1 ⊢
      by_cases c4 : (GEdf.system ts).onlyConstrainedDeadlines = true
      · rw [if_pos c4] at h1 ⊢
        by_cases c5 : GEdf.gfb m (GEdf.system ts) = true
        · rw [if_pos c5]; rfl
        rw [if_neg c5] at h1 ⊢
        by_cases c6 : (GEdf.shouldUseBaruah want (GEdf.system ts) m && GEdf.bar m (GEdf.system ts)) = true
        · rw [if_pos c6]; rfl
        rw [if_neg c6] at h1 ⊢
        obtain ⟨x, hx⟩ := Option.isSome_iff_exists.1 h1
        obtain ⟨r, hr, -⟩ := Option.bind_eq_some_iff.1 hx
        rw [hr, Option.bind_some]
        cases r with
        | true => rfl
        | false => exact h2 c4 c2 c5
      · rw [if_neg c4]; rfl
    · rw [if_neg c2]; rfl
  by_cases hd : (GEdf.system ts).onlyConstrainedDeadlines = true
  · by_cases hc : ∃ t ∈ ts, 0 < t.cost
    · have hd' : GEdf.Constrained ts := by
        intro t ht
        unfold TaskSystem.onlyConstrainedDeadlines at hd
        rw [List.all_eq_true] at hd
        have := hd t.toTask (List.mem_map_of_mem ht)
        unfold SporadicTask.constrainedDeadline GEdf.ITask.toTask at this
        simpa using this
      obtain ⟨N', hN'⟩ := C88_ffdbf_terminates pick hq m ts hp hd' hc (1 / 10) (by norm_num) 50 (by norm_num)
      exact ⟨max N N', fun fuel h => hpass fuel (hN fuel ((le_max_left _ _).trans h))
        (fun _ _ _ => hN' fuel ((le_max_right _ _).trans h))⟩
    · refine ⟨N, fun fuel h => hpass fuel (hN fuel h) (fun _ hm hg => absurd ?_ hg)⟩
      push Not at hc
      have hz : ∀ t ∈ GEdf.system ts, t.density = 0 := by
        intro t ht
        obtain ⟨y, hy, rfl⟩ := List.mem_map.1 (show t ∈ ts.map GEdf.ITask.toTask from ht)
        have := hc y hy
        unfold SporadicTask.density GEdf.ITask.toTask
        rw [show y.cost = 0 by omega]
        simp
      cases ts with
      | nil => rfl
      | cons t rest =>
        refine (GEdf.gfb_iff m t.toTask (GEdf.system rest) hm.le).2 (fun tk htk => ?_)
        rw [hz tk htk]
        have : TaskSystem.density (t.toTask :: GEdf.system rest) = 0 := by
          unfold TaskSystem.density
          refine List.sum_eq_zero (fun x hx => ?_)
          obtain ⟨y, hy, rfl⟩ := List.mem_map.1 hx
          exact hz y hy
        rw [this]
        simp
  · exact ⟨N, fun fuel h => hpass fuel (hN fuel h) (fun h1 => absurd h1 hd)⟩

example : GEdf.Proper ffSample ∧ GEdf.Feasible ffSample := by decide +kernel

theorem cppFfdbf_safe_plain {pick : ℕ → (ℕ → ℚ) → ℕ} (hq : IsQueue pick) {fuel m e g : ℕ} {ts : Native.TaskSet}
    (hp : Native.Plain ts) (h : cppFfdbf pick fuel m ts false e g = some true) : Native.Safe m ts := by
  unfold cppFfdbf at h
  by_cases hm : m < 2
  · rw [if_pos hm] at h
    cases h
  · rw [if_neg hm] at h
    exact cppCore_safe hp hq (by omega) h

/-- C88: the native combined test with `want_ffdbf`, for deadlines that do not exceed the
period, tasks that do not suspend and no tolerated tardiness. -/
theorem C88_gedf_safe_partial (pick : ℕ → (ℕ → ℤ) → ℕ) (hq : Native.IsQueue pick) (pickFf : ℕ → (ℕ → ℚ) → ℕ)
    (hqf : IsQueue pickFf) (late : ℕ → Bool) (lateLa : ℕ → ℕ → ℕ → Bool) (fuel m : ℕ) (o : Native.GedfOptions)
    (ts : Native.TaskSet) (hd : ∀ t ∈ ts, t.deadline ≤ t.period) (hw : ∀ t ∈ ts, t.deadline < 2 ^ 64)
    (hs : ∀ t ∈ ts, t.selfSuspension = 0 ∧ t.tardinessThreshold = 0)
    (h : Native.gedf pick late lateLa fuel m o ts true (cppFfdbf pickFf fuel m ts false) = some true) :
    Native.Safe m ts :=
  Native.gedf_safe hq hd hw hs (fun hp h => cppFfdbf_safe_plain hqf hp h) h

/-- C88: `edf.is_schedulable` with the native module and `want_ffdbf=True`. -/
theorem C88_edf_safe_partial (pick : ℕ → (ℕ → ℤ) → ℕ) (hq : Native.IsQueue pick) (pickFf : ℕ → (ℕ → ℚ) → ℕ)
    (hqf : IsQueue pickFf) (late : ℕ → Bool) (lateLa : ℕ → ℕ → ℕ → Bool) (fuel m : ℕ) (its : List GEdf.ITask)
    (step : ℕ) (wantBaruah wantRta wantLoad : Bool)
    (hp : ∀ t ∈ its, 0 < t.deadline ∧ t.deadline < 2 ^ 64) (hd : m = 1 ∨ ∀ t ∈ its, t.deadline ≤ t.period)
    (h : Native.isSchedulableCpp pick late lateLa fuel m its step wantBaruah wantRta wantLoad
      (cppFfdbf pickFf fuel m (Native.getNativeTaskset its) false) = some true) :
    GEdf.Schedulable m its :=
  Native.edf_safe hq (fun hp h => cppFfdbf_safe_plain hqf hp h) hp hd h

example : Native.isSchedulableCpp Native.firstMin (fun _ => false) (fun _ _ _ => false) 100 2 ffSample 1 false false false
      (cppFfdbf firstMin 100 2 (Native.getNativeTaskset ffSample) false) = some true ∧
    Native.isSchedulableCpp Native.firstMin (fun _ => false) (fun _ _ _ => false) 100 2 ffSample 1 false false false =
      some false := by
  decide +kernel

end Verif.Ff
