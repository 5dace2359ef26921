/-
Runs under partitioned EDF with preemptable FIFO spin locks: requests that are cancelled, and progress in a window.
-/
import Verif.Spec.FifoPreempt
import Verif.Lemmas.LpSpinRun

namespace Verif.Spec
open Finset

variable {n : ℕ} {S : LockSystem n} {tie : Fin n → ℕ} {R : LockRun n}

/-! ### When a request was issued -/

theorem LockRun.since_le (s : Section n) (t : ℕ) : R.since s t ≤ t := by
  induction t with
  | zero => exact le_rfl
  | succ t ih =>
    unfold LockRun.since
    split_ifs
    · omega
    · exact le_rfl

theorem LockRun.enter_le_since {s : Section n} {t : ℕ} (h : R.enter s ≤ t) : R.enter s ≤ R.since s t := by
  induction t with
  | zero => exact h
  | succ t ih =>
    unfold LockRun.since
    split_ifs with hc
    · exact ih hc.1
    · exact h

theorem LockRun.since_sched {s : Section n} {t u : ℕ} (h1 : R.since s t ≤ u) (h2 : u < t) : s.job ∈ R.sched u := by
  induction t with
  | zero => omega
  | succ t ih =>
    unfold LockRun.since at h1
    split_ifs at h1 with hc
    · rcases Nat.lt_or_ge u t with h3 | h3
      · exact ih h1 h3
      · rw [show u = t by omega]
        exact hc.2
    · omega

/-- A request that has been pending since some slot was pending since the same slot before. -/
theorem LockRun.since_eq {s : Section n} {t u : ℕ} (h1 : R.since s t ≤ u) (h2 : u ≤ t) : R.since s u = R.since s t := by
  induction t with
  | zero => rw [show u = 0 by omega]
  | succ t ih =>
    by_cases hu : u = t + 1
    · rw [hu]
    · have e : R.since s (t + 1) = if R.enter s ≤ t ∧ s.job ∈ R.sched t then R.since s t else t + 1 := rfl
      rw [e] at h1 ⊢
      split_ifs at h1 ⊢ with hc
      · exact ih h1 (by omega)
      · omega

theorem LockRun.since_mono {s : Section n} {t u : ℕ} (h : t ≤ u) : R.since s t ≤ R.since s u := by
  by_cases hc : R.since s u ≤ t
  · rw [R.since_eq hc h]
  · have := R.since_le s t
    omega

/-- Before a request was issued anew, the job did not execute. -/
theorem LockRun.since_break {s : Section n} {t : ℕ} (h1 : R.enter s < R.since s t) :
    s.job ∉ R.sched (R.since s t - 1) := by
  intro hc
  have e := R.since_eq (s := s) le_rfl (R.since_le s t)
  obtain ⟨e', he'⟩ : ∃ e', R.since s t = e' + 1 := ⟨R.since s t - 1, by omega⟩
  rw [he'] at e hc h1
  have e2 : R.since s (e' + 1) = if R.enter s ≤ e' ∧ s.job ∈ R.sched e' then R.since s e' else e' + 1 := rfl
  rw [if_pos ⟨by omega, by simpa using hc⟩] at e2
  have := R.since_le s e'
  omega

/-! ### Sections -/

section
variable (h : FifoPreempt S tie R)
include h

theorem FifoPreempt.section_unique {s s' : Section n} {t : ℕ} (hi : R.issued s) (hi' : R.issued s') (hj : s.job = s'.job)
    (h1 : R.enter s ≤ t) (h2 : t < R.leave s) (h1' : R.enter s' ≤ t) (h2' : t < R.leave s') : s = s' := by
  by_contra hne
  rcases h.serial s s' hi hi' hj hne with h3 | h3 <;> omega

theorem FifoPreempt.spins_global {s : Section n} (hi : R.issued s) (hlt : R.enter s < R.acquire s) :
    ∃ q, (S.reqs s.job.1)[s.idx]? = some q ∧ S.Global q.res := by
  obtain ⟨q, hq, _⟩ := h.declared s hi
  refine ⟨q, hq, ?_⟩
  by_contra hg
  have := h.immediate s q hi hq hg
  omega

/-- Requests are served in the order in which they were issued for the last time. -/
abbrev LockRun.lastFifo (R : LockRun n) (u : ℕ) (s z : Section n) : Prop := R.since z (R.acquire z) ≤ R.since s u

theorem FifoPreempt.blocks {s : Section n} {u : ℕ} (hi : R.issued s) (h1 : R.enter s ≤ u) (h2 : u < R.acquire s)
    (hy : s.job ∈ R.sched u) : ∃ z, R.Served z u ∧ R.Blocks S (R.lastFifo u) s z u := by
  obtain ⟨q, hq, hg⟩ := h.spins_global hi (by omega)
  obtain ⟨z, q', hi', hq', hr, h3, h4, h5⟩ := h.fifo s q u hi hq hg h1 h2 hy
  have ho := h.order z hi'
  have ho' := h.order s hi
  have hx := h.nonpreemptive z q' u hi' hq' (hr ▸ hg) h4 h5
  refine ⟨z, ⟨hi', h4, h5, hx⟩, ⟨hi, h1, h2, hy, ⟨q.res, ⟨q, hq, rfl⟩, ⟨q', hq', hr⟩, hg⟩, ?_, h3⟩⟩
  intro hp
  have hjob := h.one _ _ hx _ hy hp
  have := h.section_unique (t := u) hi' hi hjob (by omega) h5 h1 (by omega)
  subst this
  omega

/-- While a request is pending, at most one request of another processor is served before it. -/
theorem FifoPreempt.fifo_unique {s z z' : Section n} {u u' : ℕ} (hb : R.Blocks S (R.lastFifo u) s z u)
    (hb' : R.Blocks S (R.lastFifo u') s z' u') (hs : R.Served z u) (hs' : R.Served z' u')
    (he : R.since s u = R.since s u') (hp : S.proc z.job.1 = S.proc z'.job.1) : z = z' := by
  have key : ∀ {z : Section n} {u : ℕ}, R.Blocks S (R.lastFifo u) s z u → R.Served z u →
      R.enter z ≤ R.since s u ∧ R.since s u < R.leave z ∧ z.job ∈ R.sched (R.since s u) := by
    intro z u hb hs
    obtain ⟨r, _, ⟨b, hb1, hb2⟩, hg⟩ := hb.res
    have o := hb.order
    have e0 := (h.order z hs.issued).1
    have e1 := R.enter_le_since e0
    have l := R.since_le s u
    have hl := hs.leave
    refine ⟨by omega, by omega, ?_⟩
    rcases Nat.lt_or_ge (R.since s u) (R.acquire z) with h2 | h2
    · exact R.since_sched o h2
    · exact h.nonpreemptive z b _ hs.issued hb1 (hb2 ▸ hg) h2 (by omega)
  obtain ⟨a1, a2, a3⟩ := key hb hs
  obtain ⟨b1, b2, b3⟩ := key hb' hs'
  rw [← he] at b1 b2 b3
  exact h.section_unique hs.issued hs'.issued (h.one _ _ a3 _ b3 hp) a1 a2 b1 b2

/-! ### Cancelled requests -/

/-- If a request is pending in two slots but was issued in between, a job with a shorter deadline has arrived. -/
theorem FifoPreempt.cancelled {s : Section n} {u0 u : ℕ} (hi : R.issued s) (h0 : R.enter s ≤ u0)
    (hx0 : s.job ∈ R.sched u0) (hlt : R.since s u0 < R.since s u) (ha : u < R.acquire s) (hx : s.job ∈ R.sched u) :
    ∃ j v, u0 ≤ v ∧ v + 1 < R.since s u ∧ s.job ∈ R.sched v ∧ (∀ w, v < w → w < R.since s u → s.job ∉ R.sched w) ∧
      R.work.release j = v + 1 ∧ S.proc j.1 = S.proc s.job.1 ∧ S.deadline j.1 < S.deadline s.job.1 ∧
      R.work.deadline S.deadline j ≤ R.work.deadline S.deadline s.job := by
  classical
  set e := R.since s u with hedef
  have heu : e ≤ u := R.since_le s u
  have hu0 : u0 < e := by
    by_contra hc
    push Not at hc
    rcases Nat.le_total u0 u with h1 | h1
    · have := R.since_eq (s := s) hc h1
      omega
    · have := R.since_mono (s := s) h1
      omega
  have hbr : s.job ∉ R.sched (e - 1) := R.since_break (by omega)
  -- the last slot before the break
  let P : ℕ → Prop := fun v => s.job ∈ R.sched v
  obtain ⟨v, hv⟩ : ∃ v, v = Nat.findGreatest P (e - 1) := ⟨_, rfl⟩
  have hv1 : u0 ≤ v := by rw [hv]; exact Nat.le_findGreatest (by omega) hx0
  have hv2 : s.job ∈ R.sched v := by
    rw [hv]
    exact Nat.findGreatest_spec (P := P) (m := u0) (by omega) hx0
  have hv3 : v ≤ e - 1 := by rw [hv]; exact Nat.findGreatest_le _
  have hv4 : ∀ w, v < w → w < e → s.job ∉ R.sched w := by
    intro w h1 h2
    rw [hv] at h1
    exact Nat.findGreatest_is_greatest h1 (by omega)
  have hv5 : v ≠ e - 1 := by
    rintro rfl
    exact hbr hv2
  have ho := h.order s hi
  -- the job is ready in the next slot
  have hru := h.ready u _ hx
  have hrv := h.ready v _ hv2
  have hinc : ¬ Completed R.work R.sched s.job (v + 1) := fun hc => hru.1.2 (hc.mono (by omega))
  have hrdy : Ready R.work R.sched s.job (v + 1) :=
    ⟨⟨hrv.1.1.trans (Nat.le_succ v), hinc⟩, fun k hk => (hrv.2 k hk).mono (Nat.le_succ v)⟩
  obtain ⟨j, hj1, hj2, hj3⟩ := h.edf (v + 1) s.job hrdy (hv4 _ (Nat.lt_succ_self v) (by omega))
  have hne : j ≠ s.job := by
    rintro rfl
    exact hv4 _ (Nat.lt_succ_self v) (by omega) hj1
  have hnv : j ∉ R.sched v := fun hc => hne (h.one v _ hc _ hv2 hj2)
  have hprec : R.Precedes S tie j s.job := by
    rcases hj3 with hj3 | ⟨s2, q, hi2, hs2, hq, ha2, hl2, hc⟩
    · exact hj3
    · exfalso
      by_cases hg : S.Global q.res
      · have := h.nonpreemptive s2 q v hi2 hq hg (by omega) (by omega)
        rw [hs2] at this
        exact hnv this
      · obtain ⟨y, hy1, hy2⟩ := hc.resolve_left hg
        have ho2 := h.order s2 hi2
        have := h.ceiling s2 q v hi2 hq hg (by omega) (by omega) s.job hv2 (by rw [hs2]; exact hj2.symm)
          (by rw [hs2]; exact fun hc => hne hc.symm) y hy1
        omega
  have hdl : R.work.deadline S.deadline j ≤ R.work.deadline S.deadline s.job := by
    rcases hprec with h1 | h1
    · exact h1.le
    · exact h1.1.le
  have hrj := h.ready (v + 1) j hj1
  have hnr : ¬ Ready R.work R.sched j v := by
    intro hr
    obtain ⟨j2, a1, a2, a3⟩ := h.edf v j hr hnv
    have := h.one v _ a1 _ hv2 (a2.trans hj2)
    subst this
    rcases a3 with a3 | ⟨s2, q, hi2, hs2, hq, ha2, hl2, _⟩
    · unfold LockRun.Precedes at hprec a3
      omega
    · have ho2 := h.order s2 hi2
      have := h.section_unique (t := v) hi2 hi hs2 (by omega) hl2 (by omega) (by omega)
      subst this
      omega
  have hrel : R.work.release j = v + 1 := by
    by_contra hc
    have h1 : R.work.release j ≤ v := by have := hrj.1.1; omega
    apply hnr
    refine ⟨⟨h1, fun hc => hrj.1.2 (hc.mono (Nat.le_succ v))⟩, fun k hk => ?_⟩
    by_contra hk2
    have hk3 := hrj.2 k hk
    unfold Completed at hk2 hk3
    have hs : (j.1, k) ∈ R.sched v := by
      by_contra hns
      unfold service at hk2 hk3
      rw [range_add_one, filter_insert, if_neg hns] at hk3
      exact hk2 hk3
    have := h.one v _ hs _ hv2 hj2
    rw [this] at hk3
    exact hinc hk3
  refine ⟨j, v, hv1, by omega, hv2, hv4, hrel, hj2, ?_, hdl⟩
  have := hrv.1.1
  unfold Workload.deadline at hdl
  omega

/-! ### Progress -/

theorem FifoPreempt.valid : ValidSchedule n R.work R.sched := by
  refine ⟨fun t => ?_, h.ready⟩
  have hinj : Set.InjOn (Prod.fst : Job n → Fin n) (R.sched t) := by
    intro j hj j' hj' he
    exact h.one t j hj j' hj' (by rw [he])
  have := card_le_card_of_injOn (Prod.fst : Job n → Fin n) (t := (univ : Finset (Fin n)))
    (fun _ _ => mem_coe.2 (mem_univ _)) hinj
  simpa using this

/-- A job does not make more progress than its cost. -/
theorem FifoPreempt.progress_le (j : Job n) (t : ℕ) : R.progress j t ≤ S.cost j.1 := by
  classical
  induction t with
  | zero => simp [LockRun.progress]
  | succ t ih =>
    unfold LockRun.progress at ih ⊢
    rw [range_add_one, filter_insert]
    split_ifs with hc
    · have h1 := h.cost j t (h.ready t j hc.1).1.2
      unfold LockRun.progress at h1
      have := card_insert_le t ((range t).filter (fun u => j ∈ R.sched u ∧ ¬ R.Waiting j u))
      have e : ((range t).filter (fun u => j ∈ R.sched u ∧ ¬ R.Waiting j u)).card < S.cost j.1 := h1
      omega
    · exact ih

/-- If one of some jobs is incomplete at the end of a window, their costs and the slots in which none of them makes
progress exceed the window. -/
theorem FifoPreempt.window_lt {lo hi : ℕ} {A : Finset (Job n)} {x0 : Job n} (hx0 : x0 ∈ A)
    (hno : ¬ Completed R.work R.sched x0 hi) {V : Finset ℕ}
    (hV : ∀ t, lo ≤ t → t < hi → (∀ x ∈ A, x ∈ R.sched t → R.Waiting x t) → t ∈ V) :
    hi - lo < ∑ x ∈ A, S.cost x.1 + V.card := by
  classical
  have hcov : Ico lo hi ⊆ A.biUnion (fun x => (range hi).filter (fun u => x ∈ R.sched u ∧ ¬ R.Waiting x u)) ∪ V := by
    intro t ht
    rw [mem_Ico] at ht
    rw [mem_union]
    by_cases hc : ∀ x ∈ A, x ∈ R.sched t → R.Waiting x t
    · exact Or.inr (hV t ht.1 ht.2 hc)
    · push Not at hc
      obtain ⟨x, h1, h2, h3⟩ := hc
      exact Or.inl (mem_biUnion.2 ⟨x, h1, mem_filter.2 ⟨mem_range.2 ht.2, h2, h3⟩⟩)
  have h1 := (card_le_card hcov).trans (card_union_le _ _)
  rw [Nat.card_Ico] at h1
  have h2 := card_biUnion_le (s := A) (t := fun x => (range hi).filter (fun u => x ∈ R.sched u ∧ ¬ R.Waiting x u))
  have h3 : ∑ x ∈ A, ((range hi).filter (fun u => x ∈ R.sched u ∧ ¬ R.Waiting x u)).card < ∑ x ∈ A, S.cost x.1 := by
    apply sum_lt_sum
    · intro x _
      have := h.progress_le x hi
      unfold LockRun.progress at this
      exact this
    · refine ⟨x0, hx0, ?_⟩
      have := h.cost x0 hi hno
      unfold LockRun.progress at this
      exact this
  omega

end

end Verif.Spec
