/-
Overhead accounting is conservative (C31), and what it does to short periods (C59).
-/
import Verif.Model.Overheads
import Verif.Props.Quanta
import Mathlib.Algebra.Order.BigOperators.Group.List

namespace Verif.Oh

/-! ### Specification -/

/-- An overhead object without negative overheads. -/
structure Oheads.Nonneg (o : Oheads) : Prop where
  quantum : 0 < o.quantum
  tick : ∀ x, 0 ≤ o.tick x
  releaseLatency : ∀ x, 0 ≤ o.releaseLatency x
  release : ∀ x, 0 ≤ o.release x
  schedule : ∀ x, 0 ≤ o.schedule x
  ctxSwitch : ∀ x, 0 ≤ o.ctxSwitch x
  ipiLatency : ∀ x, 0 ≤ o.ipiLatency x
  cacheAffinityLoss : ∀ x, 0 ≤ o.cacheAffinityLoss x
  initialCacheLoad : ∀ x, 0 ≤ o.initialCacheLoad x
  lock : ∀ x, 0 ≤ o.lock x
  unlock : ∀ x, 0 ≤ o.unlock x
  readLock : ∀ x, 0 ≤ o.readLock x
  readUnlock : ∀ x, 0 ≤ o.readUnlock x
  syscallIn : ∀ x, 0 ≤ o.syscallIn x
  syscallOut : ∀ x, 0 ≤ o.syscallOut x

/-- The scheduling overheads of `o` are at most those of `o'`. -/
structure Oheads.Le (o o' : Oheads) : Prop where
  quantum : o.quantum = o'.quantum
  tick : ∀ x, o.tick x ≤ o'.tick x
  releaseLatency : ∀ x, o.releaseLatency x ≤ o'.releaseLatency x
  release : ∀ x, o.release x ≤ o'.release x
  schedule : ∀ x, o.schedule x ≤ o'.schedule x
  ctxSwitch : ∀ x, o.ctxSwitch x ≤ o'.ctxSwitch x
  ipiLatency : ∀ x, o.ipiLatency x ≤ o'.ipiLatency x
  cacheAffinityLoss : ∀ x, o.cacheAffinityLoss x ≤ o'.cacheAffinityLoss x

/-- Density at most one (with a denominator other than zero). -/
def DensityOk (cost period deadline : ℚ) : Prop :=
  min period deadline ≠ 0 ∧ cost / min period deadline ≤ 1

/-- A feasible set of parameters. -/
def FeasibleParams (cost period deadline : ℚ) : Prop :=
  0 < period ∧ 0 < deadline ∧ cost ≤ min period deadline

/-- The verdict is positive and the resulting tasks satisfy `p`. -/
def Outcome.acceptedWith {α : Type} (p : α → Bool) : Outcome α → Bool
  | .accepted a => p a
  | _ => false

theorem Outcome.acceptedWith_elim {α : Type} {p : α → Bool} {x : Outcome α}
    (h : x.acceptedWith p = true) : ∃ a, x = .accepted a ∧ p a = true := by
  cases x with
  | accepted a => exact ⟨a, rfl, h⟩
  | raised => exact absurd h (by simp [Outcome.acceptedWith])
  | rejected => exact absurd h (by simp [Outcome.acceptedWith])

/-! ### Lemmas -/

theorem densityAtMostOne_iff {c p d : ℚ} :
    densityAtMostOne c p d = some true ↔ DensityOk c p d := by
  unfold densityAtMostOne DensityOk
  simp only
  by_cases h : min p d = 0
  · simp [h]
  · rw [if_neg h]
    simp [h]

theorem sweepG_accepted {α β : Type} {f : α → Option β} {chk : β → Option Bool}
    {ts : List α} {ts' : List β} :
    sweepG f chk ts = .accepted ts' ↔
      List.Forall₂ (fun t t' => f t = some t' ∧ chk t' = some true) ts ts' := by
  induction ts generalizing ts' with
  | nil =>
    simp only [sweepG, Outcome.accepted.injEq, List.forall₂_nil_left_iff]
    exact eq_comm
  | cons t ts ih =>
    constructor
    · intro h
      unfold sweepG at h
      cases hf : f t with
      | none => rw [hf] at h; exact absurd h (by simp)
      | some t' =>
        rw [hf] at h
        simp only at h
        cases hc : chk t' with
        | none => rw [hc] at h; exact absurd h (by simp)
        | some b =>
          rw [hc] at h
          cases b with
          | false => exact absurd h (by simp)
          | true =>
            simp only at h
            cases hs : sweepG f chk ts with
            | raised => rw [hs] at h; exact absurd h (by simp)
            | rejected => rw [hs] at h; exact absurd h (by simp)
            | accepted us =>
              rw [hs] at h
              simp only [Outcome.accepted.injEq] at h
              subst h
              exact .cons ⟨hf, hc⟩ (ih.mp hs)
    · intro h
      cases h with
      | cons hab htl =>
        unfold sweepG
        rw [hab.1]
        simp only [hab.2, ih.mpr htl]

theorem DensityOk.feasible {c p d : ℚ} (h : DensityOk c p d) (hp : 0 < p) (hd : 0 < d) :
    FeasibleParams c p d := by
  refine ⟨hp, hd, ?_⟩
  have := h.2
  rwa [div_le_one (lt_min hp hd)] at this

/-- A list related to its enumeration. -/
theorem forall₂_zipIdx {α β : Type} {R : α × ℕ → β → Prop} {l : List α} {m : List β} {k : ℕ}
    (h : List.Forall₂ R (l.zipIdx k) m) : List.Forall₂ (fun a b => ∃ i, R (a, i) b) l m := by
  induction l generalizing k m with
  | nil => cases h; exact .nil
  | cons a l ih =>
    rw [List.zipIdx_cons] at h
    cases h with
    | cons hab htl => exact .cons ⟨k, hab⟩ (ih htl)

/-! ### Initial cache load -/

/-- Part of C31: charging the initial cache load adds exactly the load of the working
set to each cost; accepted tasks have density at most one. -/
theorem C31_initial_load {o : Oheads} {ts ts' : List OTask}
    (h : chargeInitialLoad o ts = .accepted ts') :
    List.Forall₂ (fun t t' => t' = { t with cost := t.cost + o.initialCacheLoad t.wss } ∧
      t.cost ≤ t'.cost ∧ DensityOk t'.cost t'.period t'.deadline) ts ts' := by
  refine (sweepG_accepted.mp h).imp ?_
  rintro t t' ⟨hf, hc⟩
  simp only at hf
  by_cases hl : o.initialCacheLoad t.wss ≥ 0
  · rw [if_pos hl] at hf
    simp only [Option.some.injEq] at hf
    subst hf
    exact ⟨rfl, by simp only; linarith, densityAtMostOne_iff.mp hc⟩
  · rw [if_neg hl] at hf
    exact absurd hf (by simp)

/-! ### Cache-related preemption delay -/

theorem cpmdCharge_nonneg {o : Oheads} (ho : ∀ x, 0 ≤ o.cacheAffinityLoss x)
    (ts : List OTask) (i : ℕ) : 0 ≤ cpmdCharge o ts i := by
  unfold cpmdCharge
  split
  · exact le_refl _
  · split_ifs
    · exact ho _
    · split
      · exact le_refl _
      · exact ho _

/-- The charge covers the cache affinity loss due to any other task, if losses grow
with the working set size. -/
theorem cpmdCharge_covers {o : Oheads}
    (hmono : ∀ x y, x ≤ y → o.cacheAffinityLoss x ≤ o.cacheAffinityLoss y)
    (ts : List OTask) (i j : ℕ) (hj : j < ts.length) (hij : i ≠ j) :
    o.cacheAffinityLoss ts[j].wss ≤ cpmdCharge o ts i := by
  set r : OTask × ℕ → OTask × ℕ → Prop := fun a b => a.1.wss ≥ b.1.wss with hr
  have hmem : (ts[j], j) ∈ ts.zipIdx.insertionSort r := by
    rw [List.mem_insertionSort, List.mem_zipIdx_iff_getElem?]
    simp [hj]
  haveI : IsTotal (OTask × ℕ) r := ⟨fun a b => le_total b.1.wss a.1.wss⟩
  haveI : IsTrans (OTask × ℕ) r := ⟨fun a b c h1 h2 => le_trans (b := b.1.wss) h2 h1⟩
  have hs := List.pairwise_insertionSort r ts.zipIdx
  unfold cpmdCharge twoLargest
  change _ ≤ (match List.take 2 (ts.zipIdx.insertionSort r) with
    | [] => (0 : ℚ)
    | a :: rest =>
      if i ≠ a.2 then o.cacheAffinityLoss a.1.wss
      else
        match rest with
        | [] => 0
        | b :: _ => o.cacheAffinityLoss b.1.wss)
  cases hl : ts.zipIdx.insertionSort r with
  | nil => rw [hl] at hmem; exact absurd hmem (by simp)
  | cons a l =>
    rw [hl] at hmem hs
    rw [List.pairwise_cons] at hs
    simp only [List.take_succ_cons]
    by_cases hi : i ≠ a.2
    · rw [if_pos hi]
      rcases List.mem_cons.mp hmem with rfl | hm
      · exact le_refl _
      · exact hmono _ _ (hs.1 _ hm)
    · rw [if_neg hi]
      have hne : (ts[j], j) ≠ a := by
        rintro rfl
        push Not at hi
        exact hij hi
      have hm : (ts[j], j) ∈ l := by
        rcases List.mem_cons.mp hmem with h | h
        · exact absurd h hne
        · exact h
      cases l with
      | nil => exact absurd hm (by simp)
      | cons b l =>
        simp only [List.take_succ_cons]
        rcases List.mem_cons.mp hm with rfl | hm'
        · exact le_refl _
        · exact hmono _ _ ((List.pairwise_cons.mp hs.2).1 _ hm')

theorem cpmdCharge_le {o o' : Oheads} (h : ∀ x, o.cacheAffinityLoss x ≤ o'.cacheAffinityLoss x)
    (ts : List OTask) (i : ℕ) : cpmdCharge o ts i ≤ cpmdCharge o' ts i := by
  unfold cpmdCharge
  split
  · exact le_refl _
  · split_ifs
    · exact h _
    · split
      · exact le_refl _
      · exact h _

/-! ### Interrupt costs -/

/-- Utilization of tick interrupts. -/
def utick (o : Oheads) (ts : List OTask) : ℚ := o.tick ts.length / o.quantum

/-- Utilization of release interrupts (none if they are handled elsewhere). -/
def urel (o : Oheads) (dedicated : Bool) (ts : List OTask) : ℚ :=
  if dedicated then 0
  else ((ts.filter (fun t => !t.earlyReleasing)).map
    (fun t => o.release ts.length / t.period)).sum

/-- One tick and one release of every task, with the interrupts due during the event
latency. -/
def irqBurst (o : Oheads) (dedicated : Bool) (ts : List OTask) : ℚ :=
  o.tick ts.length + o.releaseLatency ts.length * (utick o ts + urel o dedicated ts) +
  if dedicated then 0
  else ((ts.filter (fun t => !t.earlyReleasing)).length : ℚ) * o.release ts.length

theorem irqCosts_eq {o : Oheads} {ded : Bool} {ts : List OTask} {us cp : ℚ}
    (h : irqCosts o ded ts = some (us, cp)) :
    us = 1 - utick o ts - urel o ded ts ∧ us ≠ 0 ∧ cp = irqBurst o ded ts / us := by
  unfold irqCosts at h
  simp only at h
  by_cases h0 : o.quantum = 0
  · rw [if_pos h0] at h; exact absurd h (by simp)
  rw [if_neg h0] at h
  split_ifs at h with h1 h2 h3
  all_goals
    simp only [Option.some.injEq, Prod.mk.injEq] at h
    obtain ⟨rfl, rfl⟩ := h
    unfold irqBurst utick urel
    simp_all [irqTasks]
    try ring

theorem irqCosts_some {o : Oheads} {ded : Bool} {ts : List OTask} (hq : o.quantum ≠ 0)
    (hp : ∀ t ∈ ts, t.period ≠ 0) (hu : 1 - utick o ts - urel o ded ts ≠ 0) :
    irqCosts o ded ts = some (1 - utick o ts - urel o ded ts,
      irqBurst o ded ts / (1 - utick o ts - urel o ded ts)) := by
  have hany : ¬ (ded = false ∧ ((irqTasks ts).any fun t => decide (t.period = 0)) = true) := by
    rintro ⟨-, h⟩
    simp only [List.any_eq_true, decide_eq_true_eq] at h
    obtain ⟨t, ht, h0⟩ := h
    exact hp t (List.mem_of_mem_filter ht) h0
  unfold irqCosts
  simp only
  rw [if_neg hq, if_neg hany]
  unfold irqBurst utick urel at *
  unfold irqTasks
  cases ded with
  | true =>
    simp only [if_true, add_zero] at hu ⊢
    rw [if_neg hu]
  | false =>
    simp only [Bool.false_eq_true, if_false] at hu ⊢
    rw [if_neg hu]
    congr 2
    ring

theorem urel_nonneg {o : Oheads} {ded : Bool} {ts : List OTask} (ho : o.Nonneg)
    (hp : ∀ t ∈ ts, 0 < t.period) : 0 ≤ urel o ded ts := by
  unfold urel
  split_ifs
  · exact le_refl _
  · apply List.sum_nonneg
    intro x hx
    obtain ⟨t, ht, rfl⟩ := List.mem_map.mp hx
    exact div_nonneg (ho.release _) (hp t (List.mem_of_mem_filter ht)).le

theorem utick_nonneg {o : Oheads} {ts : List OTask} (ho : o.Nonneg) : 0 ≤ utick o ts :=
  div_nonneg (ho.tick _) ho.quantum.le

theorem irqBurst_nonneg {o : Oheads} {ded : Bool} {ts : List OTask} (ho : o.Nonneg)
    (hp : ∀ t ∈ ts, 0 < t.period) : 0 ≤ irqBurst o ded ts := by
  unfold irqBurst
  have h1 := ho.tick ts.length
  have h2 := mul_nonneg (ho.releaseLatency ts.length)
    (add_nonneg (utick_nonneg (ts := ts) ho) (urel_nonneg (ded := ded) ho hp))
  split_ifs
  · linarith
  · have := mul_nonneg (Nat.cast_nonneg (α := ℚ)
      (ts.filter (fun t => !t.earlyReleasing)).length) (ho.release ts.length)
    linarith

/-! ### C31: job-level fixed priorities -/

/-- The time each job is delayed by inter-processor interrupts and remote release
processing. -/
def ipiCharge (o : Oheads) (numCpus : ℕ) (ded : Bool) (n : ℚ) : ℚ :=
  if ded then o.ipiLatency n + o.release n else if numCpus > 1 then o.ipiLatency n else 0

theorem unscaledCost_eq (o : Oheads) (numCpus : ℕ) (ded : Bool) (n cp : ℚ) :
    unscaledCost o numCpus ded n cp = 2 * cp + ipiCharge o numCpus ded n := by
  unfold unscaledCost ipiCharge
  split_ifs <;> ring

theorem ipiCharge_nonneg {o : Oheads} (ho : o.Nonneg) (numCpus : ℕ) (ded : Bool) (n : ℚ) :
    0 ≤ ipiCharge o numCpus ded n := by
  unfold ipiCharge
  have := ho.ipiLatency n
  have := ho.release n
  split_ifs <;> linarith

theorem jlfp_accepted {o : Oheads} {m : ℕ} {ded : Bool} {ts ts' : List OTask}
    (h : jlfpCharge o m ded ts = .accepted ts') :
    0 < 1 - utick o ts - urel o ded ts ∧
    List.Forall₂ (fun p t' =>
      t' = jlfpTask o m ded ts (1 - utick o ts - urel o ded ts)
        (irqBurst o ded ts / (1 - utick o ts - urel o ded ts)) p.1 p.2 ∧
      DensityOk t'.cost t'.period t'.deadline) ts.zipIdx ts' := by
  unfold jlfpCharge at h
  cases hi : irqCosts o ded ts with
  | none => rw [hi] at h; exact absurd h (by simp)
  | some p =>
    obtain ⟨us, cp⟩ := p
    rw [hi] at h
    simp only at h
    by_cases hu : us ≤ 0
    · rw [if_pos hu] at h; exact absurd h (by simp)
    · rw [if_neg hu] at h
      obtain ⟨rfl, _, rfl⟩ := irqCosts_eq hi
      refine ⟨not_le.mp hu, (sweepG_accepted.mp h).imp ?_⟩
      rintro p t' ⟨hf, hc⟩
      simp only [Option.some.injEq] at hf
      exact ⟨hf.symm, densityAtMostOne_iff.mp hc⟩

/-- Forall₂ over an enumeration, with the position. -/
theorem forall₂_zipIdx_get {α β : Type} {R : α × ℕ → β → Prop} {l : List α} {m : List β}
    {k : ℕ} (h : List.Forall₂ R (l.zipIdx k) m) (i : ℕ) (hi : i < l.length)
    (hi' : i < m.length) : R (l[i], k + i) m[i] := by
  induction l generalizing k m i with
  | nil => exact absurd hi (by simp)
  | cons a l ih =>
    rw [List.zipIdx_cons] at h
    cases h with
    | cons hab htl =>
      cases i with
      | zero => simpa using hab
      | succ i =>
        have := ih htl i (by simpa using hi) (by simpa using hi')
        simpa [Nat.add_assoc, Nat.add_comm, Nat.add_left_comm] using this

/-- C31 for job-level fixed priorities: if the set is accepted, no parameter became
more favourable and each density is at most one; moreover each cost grew by at
least two scheduler invocations and context switches, the cache affinity loss of
any other task, two interrupt bursts, and the inter-processor interrupt, and the
period and deadline shrank by exactly the release latency. -/
theorem C31_jlfp {o : Oheads} {m : ℕ} {ded : Bool} {ts ts' : List OTask} (ho : o.Nonneg)
    (hp : ∀ t ∈ ts, 0 < t.period) (hc : ∀ t ∈ ts, 0 ≤ t.cost)
    (h : jlfpCharge o m ded ts = .accepted ts') :
    ts'.length = ts.length ∧ ∀ (i : ℕ) (hi : i < ts.length) (hi' : i < ts'.length),
      ts'[i].period = ts[i].period - o.releaseLatency ts.length ∧
      ts'[i].deadline = ts[i].deadline - o.releaseLatency ts.length ∧
      ts'[i].period ≤ ts[i].period ∧ ts'[i].deadline ≤ ts[i].deadline ∧
      ts[i].cost ≤ ts'[i].cost ∧ DensityOk ts'[i].cost ts'[i].period ts'[i].deadline ∧
      ts[i].cost + 2 * (o.schedule ts.length + o.ctxSwitch ts.length)
        + 2 * irqBurst o ded ts + ipiCharge o m ded ts.length ≤ ts'[i].cost ∧
      ((∀ x y, x ≤ y → o.cacheAffinityLoss x ≤ o.cacheAffinityLoss y) →
        ∀ (j : ℕ) (hj : j < ts.length), i ≠ j →
        ts[i].cost + 2 * (o.schedule ts.length + o.ctxSwitch ts.length)
          + o.cacheAffinityLoss ts[j].wss + 2 * irqBurst o ded ts
          + ipiCharge o m ded ts.length ≤ ts'[i].cost) := by
  obtain ⟨hu, hall⟩ := jlfp_accepted h
  have hlen : ts'.length = ts.length := by
    have := hall.length_eq
    simpa using this.symm
  refine ⟨hlen, fun i hi hi' => ?_⟩
  obtain ⟨he, hd⟩ := forall₂_zipIdx_get hall i hi hi'
  simp only [Nat.zero_add] at he
  have hu1 : 1 - utick o ts - urel o ded ts ≤ 1 := by
    have := utick_nonneg (ts := ts) ho
    have := urel_nonneg (ded := ded) ho hp
    linarith
  have hgrow : ∀ x : ℚ, 0 ≤ x → x ≤ x / (1 - utick o ts - urel o ded ts) := by
    intro x hx
    rw [le_div_iff₀ hu]
    nlinarith
  have hcost : ts[i].cost + (2 * (o.schedule ts.length + o.ctxSwitch ts.length)
      + cpmdCharge o ts i) + 2 * irqBurst o ded ts + ipiCharge o m ded ts.length
      ≤ ts'[i].cost := by
    rw [he]
    simp only [jlfpTask, unscaledCost_eq]
    have h1 := hgrow (ts[i].cost + (2 * (o.schedule ts.length + o.ctxSwitch ts.length)
      + cpmdCharge o ts i)) (by
        have := hc ts[i] (List.getElem_mem hi)
        have := ho.schedule ts.length
        have := ho.ctxSwitch ts.length
        have := cpmdCharge_nonneg ho.cacheAffinityLoss ts i
        linarith)
    have h2 := hgrow (irqBurst o ded ts) (irqBurst_nonneg ho hp)
    linarith
  have n1 := ho.schedule ts.length
  have n2 := ho.ctxSwitch ts.length
  have n3 := cpmdCharge_nonneg ho.cacheAffinityLoss ts i
  have n4 := irqBurst_nonneg (ded := ded) ho hp
  have n5 := ipiCharge_nonneg ho m ded ts.length
  have n6 := ho.releaseLatency ts.length
  have e1 : ts'[i].period = ts[i].period - o.releaseLatency ts.length := by rw [he]; rfl
  have e2 : ts'[i].deadline = ts[i].deadline - o.releaseLatency ts.length := by rw [he]; rfl
  refine ⟨e1, e2, by linarith, by linarith, by linarith, hd, by linarith, ?_⟩
  intro hmono j hj hij
  have := cpmdCharge_covers hmono ts i j hj hij
  linarith

/-- Overheads of a small platform. -/
def smallOheads (lat : ℚ) : Oheads where
  quantum := 1000
  tick _ := 10
  releaseLatency _ := lat
  release _ := 5
  schedule _ := 3
  ctxSwitch _ := 2
  ipiLatency _ := 4
  cacheAffinityLoss w := w
  initialCacheLoad w := w
  lock _ := 1
  unlock _ := 1
  readLock _ := 1
  readUnlock _ := 1
  syscallIn _ := 1
  syscallOut _ := 1

example : ∃ ts', jlfpCharge (smallOheads 7) 2 true
    [⟨100, 1000, 1000, 20, false⟩, ⟨200, 2000, 1500, 30, false⟩] = .accepted ts' ∧
      (ts'.all fun t => t.cost > 130) = true :=
  Outcome.acceptedWith_elim (by decide +kernel)

/-- Part of C31 (monotonicity of the verdict): if larger overheads are accepted, so are
smaller ones, provided the larger release latency is below every period and
deadline.  Missing: longer latencies, for which it fails (`C31_monotone_violated`). -/
theorem C31_jlfp_monotone_partial {o o' : Oheads} {m : ℕ} {ded : Bool} {ts ts' : List OTask}
    (ho : o.Nonneg) (hle : o.Le o') (hc : ∀ t ∈ ts, 0 ≤ t.cost)
    (hlat : ∀ t ∈ ts, o'.releaseLatency ts.length < min t.period t.deadline)
    (h : jlfpCharge o' m ded ts = .accepted ts') :
    ∃ ts'', jlfpCharge o m ded ts = .accepted ts'' := by
  obtain ⟨hu', hall⟩ := jlfp_accepted h
  have hp : ∀ t ∈ ts, 0 < t.period := fun t ht => by
    have h1 := hlat t ht
    have h2 := min_le_left t.period t.deadline
    have h3 := le_trans (ho.releaseLatency ts.length) (hle.releaseLatency ts.length)
    linarith
  have hut : utick o ts ≤ utick o' ts := by
    unfold utick
    rw [hle.quantum]
    exact div_le_div_of_nonneg_right (hle.tick _) (hle.quantum ▸ ho.quantum.le)
  have hur : urel o ded ts ≤ urel o' ded ts := by
    unfold urel
    split_ifs
    · exact le_refl _
    · apply List.sum_le_sum
      intro t ht
      exact div_le_div_of_nonneg_right (hle.release _) (hp t (List.mem_of_mem_filter ht)).le
  have hu0 : 0 < 1 - utick o ts - urel o ded ts := by linarith
  have hut0 := utick_nonneg (ts := ts) ho
  have hur0 := urel_nonneg (ded := ded) ho hp
  have hb0 := irqBurst_nonneg (ded := ded) ho hp
  have hb : irqBurst o ded ts ≤ irqBurst o' ded ts := by
    unfold irqBurst
    have h1 := hle.tick ts.length
    have h2 : o.releaseLatency ts.length * (utick o ts + urel o ded ts) ≤
        o'.releaseLatency ts.length * (utick o' ts + urel o' ded ts) :=
      mul_le_mul (hle.releaseLatency _) (by linarith) (by linarith)
        (le_trans (ho.releaseLatency _) (hle.releaseLatency _))
    split_ifs
    · linarith
    · have := mul_le_mul_of_nonneg_left (hle.release ts.length) (Nat.cast_nonneg (α := ℚ)
        (ts.filter (fun t => !t.earlyReleasing)).length)
      linarith
  unfold jlfpCharge
  rw [irqCosts_some ho.quantum.ne' (fun t ht => (hp t ht).ne') hu0.ne']
  simp only
  rw [if_neg (not_le.mpr hu0)]
  refine ⟨ts.zipIdx.map (fun p => jlfpTask o m ded ts (1 - utick o ts - urel o ded ts)
    (irqBurst o ded ts / (1 - utick o ts - urel o ded ts)) p.1 p.2), ?_⟩
  rw [sweepG_accepted, List.forall₂_map_right_iff, List.forall₂_same]
  rintro ⟨t, i⟩ hti
  refine ⟨rfl, densityAtMostOne_iff.mpr ?_⟩
  rw [List.mem_zipIdx_iff_getElem?] at hti
  obtain ⟨hi, hti⟩ := List.getElem?_eq_some_iff.mp hti
  have hlen : ts'.length = ts.length := by
    have := hall.length_eq
    simpa using this.symm
  simp only at hi hti
  obtain ⟨he, hd⟩ := forall₂_zipIdx_get hall i hi (by omega)
  simp only [Nat.zero_add] at he
  rw [he] at hd
  rw [hti] at hd
  have ht : t ∈ ts := hti ▸ List.getElem_mem hi
  have hmin : ∀ l : ℚ, min (t.period - l) (t.deadline - l) = min t.period t.deadline - l :=
    fun l => by
      rcases le_total t.period t.deadline with h | h
      · rw [min_eq_left h, min_eq_left (by linarith)]
      · rw [min_eq_right h, min_eq_right (by linarith)]
  simp only [jlfpTask, DensityOk, hmin] at hd ⊢
  have hl' := hlat t ht
  have hl := hle.releaseLatency ts.length
  have hm' : 0 < min t.period t.deadline - o'.releaseLatency ts.length := by linarith
  have hm : 0 < min t.period t.deadline - o.releaseLatency ts.length := by linarith
  refine ⟨hm.ne', ?_⟩
  have hd2 := hd.2
  rw [div_le_one hm'] at hd2
  rw [div_le_one hm]
  have hcost : (t.cost + (2 * (o.schedule ts.length + o.ctxSwitch ts.length)
      + cpmdCharge o ts i)) / (1 - utick o ts - urel o ded ts) ≤
      (t.cost + (2 * (o'.schedule ts.length + o'.ctxSwitch ts.length)
      + cpmdCharge o' ts i)) / (1 - utick o' ts - urel o' ded ts) := by
    have a1 := hle.schedule ts.length
    have a2 := hle.ctxSwitch ts.length
    have a3 := cpmdCharge_le hle.cacheAffinityLoss ts i
    have a4 := ho.schedule ts.length
    have a5 := ho.ctxSwitch ts.length
    have a6 := cpmdCharge_nonneg ho.cacheAffinityLoss ts i
    have a7 := hc t ht
    exact div_le_div₀ (by linarith) (by linarith) hu' (by linarith)
  have hpre : irqBurst o ded ts / (1 - utick o ts - urel o ded ts) ≤
      irqBurst o' ded ts / (1 - utick o' ts - urel o' ded ts) :=
    div_le_div₀ (by linarith) hb hu' (by linarith)
  have hipi : ipiCharge o m ded ts.length ≤ ipiCharge o' m ded ts.length := by
    unfold ipiCharge
    have := hle.ipiLatency ts.length
    have := hle.release ts.length
    split_ifs <;> linarith
  rw [unscaledCost_eq] at hd2 ⊢
  linarith

/-- C31 fails (monotonicity of the verdict): raising the release latency from 800 to
2000 turns a rejected task set into an accepted one. -/
theorem C31_monotone_violated :
    jlfpCharge (smallOheads 800) 1 true [⟨300, 1000, 1000, 0, false⟩] = .rejected ∧
    ∃ ts', jlfpCharge (smallOheads 2000) 1 true [⟨300, 1000, 1000, 0, false⟩] = .accepted ts' :=
  ⟨by decide +kernel, by
    obtain ⟨ts', h, -⟩ := Outcome.acceptedWith_elim (p := fun _ => true)
      (show (jlfpCharge (smallOheads 2000) 1 true
        [⟨300, 1000, 1000, 0, false⟩]).acceptedWith _ = true by decide +kernel)
    exact ⟨ts', h⟩⟩

/-- C59 fails for job-level fixed priorities: an accepted task has a negative period and
deadline. -/
theorem C59_jlfp_violated : ∃ ts',
    jlfpCharge (smallOheads 2000) 1 true [⟨300, 1000, 1000, 0, false⟩] = .accepted ts' ∧
      ∃ t ∈ ts', t.period < 0 ∧ t.deadline < 0 := by
  obtain ⟨ts', h, h'⟩ := Outcome.acceptedWith_elim
    (p := fun ts' => ts'.any fun t => decide (t.period < 0 ∧ t.deadline < 0))
    (show (jlfpCharge (smallOheads 2000) 1 true
      [⟨300, 1000, 1000, 0, false⟩]).acceptedWith _ = true by decide +kernel)
  refine ⟨ts', h, ?_⟩
  simpa using h'

/-- Part of C59 for job-level fixed priorities.  Missing: release latencies that are not
below a task's period and deadline (`C59_jlfp_violated`). -/
theorem C59_jlfp_partial {o : Oheads} {m : ℕ} {ded : Bool} {ts ts' : List OTask}
    (hlat : ∀ t ∈ ts, o.releaseLatency ts.length < min t.period t.deadline)
    (h : jlfpCharge o m ded ts = .accepted ts') :
    ∀ t ∈ ts', FeasibleParams t.cost t.period t.deadline := by
  obtain ⟨_, hall⟩ := jlfp_accepted h
  intro t' ht'
  obtain ⟨t, ht, i, he, hd⟩ := forall₂_left (forall₂_zipIdx hall) t' ht'
  have hl := hlat t ht
  rw [lt_min_iff] at hl
  apply hd.feasible
  · rw [he]; simp only [jlfpTask]; linarith [hl.1]
  · rw [he]; simp only [jlfpTask]; linarith [hl.2]

/-- Part of C31: rounding to integers moves every parameter by less than one in the
conservative direction; accepted tasks have density at most one. -/
theorem C31_jlfp_quantize {ts ts' : List OTask} (h : jlfpQuantize ts = .accepted ts') :
    List.Forall₂ (fun t t' =>
      (∃ c p d : ℤ, t'.cost = (c : ℚ) ∧ t'.period = (p : ℚ) ∧ t'.deadline = (d : ℚ)) ∧
      t.cost ≤ t'.cost ∧ t'.cost < t.cost + 1 ∧
      t'.period ≤ t.period ∧ t.period < t'.period + 1 ∧
      t'.deadline ≤ t.deadline ∧ t.deadline < t'.deadline + 1 ∧
      DensityOk t'.cost t'.period t'.deadline) ts ts' := by
  refine (sweepG_accepted.mp h).imp ?_
  rintro t t' ⟨hf, hc⟩
  simp only [Option.some.injEq] at hf
  subst hf
  simp only at hc ⊢
  refine ⟨⟨_, _, _, rfl, rfl, rfl⟩, Int.le_ceil _, Int.ceil_lt_add_one _, Int.floor_le _,
    Int.lt_floor_add_one _, Int.floor_le _, Int.lt_floor_add_one _, ?_⟩
  by_cases h0 : min ((⌊t.period⌋ : ℤ) : ℚ) ((⌊t.deadline⌋ : ℤ) : ℚ) = 0
  · rw [if_pos h0] at hc; exact absurd hc (by simp)
  · rw [if_neg h0] at hc
    exact densityAtMostOne_iff.mp hc

example : jlfpQuantize [⟨5/2, 10, 19/2, 0, false⟩] = .accepted [⟨3, 10, 9, 0, false⟩] := by
  decide +kernel

/-! ### C31: fixed priorities -/

/-- The constants that the overheads of `o` evaluate to. -/
def FpOheads.Const (o : FpOheads) : Prop :=
  o.releaseLatency.b = 0 ∧ o.tick.b = 0 ∧ o.release.b = 0 ∧ o.ipiLatency.b = 0 ∧
  o.schedule.b = 0 ∧ o.ctxSwitch.b = 0 ∧ o.cacheAffinityLoss.b = 0

/-- C31 for fixed priorities: the result consists of interrupt pseudo-tasks followed by
the tasks in their order; each task keeps its period and deadline, its jitter
grows by the release delay and its cost by two scheduler invocations and context
switches and the cache affinity loss; if ticks (releases, without a dedicated
interrupt processor) cost anything, an interrupt pseudo-task with the tick
(release) cost and the quantum (the task's period) as period precedes them. -/
theorem C31_fp {o : FpOheads} {ded : Bool} {ts out : List FTask} (hne : ts ≠ [])
    (h : fpCharge o ded ts = some out) :
    ∃ isrs ts', out = isrs ++ ts' ∧
      (o.tick.a > 0 → isrTask o.tick.a o.quantum o.releaseLatency.a ∈ isrs) ∧
      (ded = false → o.release.a > 0 →
        ∀ t ∈ ts, isrTask o.release.a t.period o.releaseLatency.a ∈ isrs) ∧
      List.Forall₂ (fun t t' => t'.period = t.period ∧ t'.deadline = t.deadline ∧
        t'.jitter = some (t.jitter.getD 0 + (o.releaseLatency.a + o.release.a +
          if ded then o.ipiLatency.a else 0)) ∧
        t'.cost = t.cost + (2 * (o.schedule.a + o.ctxSwitch.a) + o.cacheAffinityLoss.a))
        ts ts' := by
  unfold fpCharge at h
  rw [if_neg hne] at h
  simp only [LinearEqu.evalList] at h
  by_cases h1 : o.releaseLatency.b = 0
  swap
  · rw [if_neg h1] at h; exact absurd h (by simp)
  by_cases h2 : o.tick.b = 0
  swap
  · rw [if_pos h1, if_neg h2] at h; exact absurd h (by simp)
  by_cases h3 : o.release.b = 0
  swap
  · rw [if_pos h1, if_pos h2, if_neg h3] at h; exact absurd h (by simp)
  by_cases h5 : o.schedule.b = 0
  swap
  · rw [if_pos h1, if_pos h2, if_pos h3, if_neg h5] at h; cases ded <;> simp at h
  by_cases h6 : o.ctxSwitch.b = 0
  swap
  · rw [if_pos h1, if_pos h2, if_pos h3, if_pos h5, if_neg h6] at h; cases ded <;> simp at h
  by_cases h7 : o.cacheAffinityLoss.b = 0
  swap
  · rw [if_pos h1, if_pos h2, if_pos h3, if_pos h5, if_pos h6, if_neg h7] at h
    cases ded <;> simp at h
  rw [if_pos h1, if_pos h2, if_pos h3, if_pos h5, if_pos h6, if_pos h7] at h
  have key : ∀ dl : ℚ, dl = o.releaseLatency.a + o.release.a + (if ded then o.ipiLatency.a else 0) →
      out = (if o.tick.a > 0 then [isrTask o.tick.a o.quantum o.releaseLatency.a] else []) ++
        (if ded = false ∧ o.release.a > 0
          then ts.map (fun t => isrTask o.release.a t.period o.releaseLatency.a) else []) ++
        ts.map (fun t => { t with
          jitter := some (t.jitter.getD 0 + dl)
          cost := t.cost + (2 * (o.schedule.a + o.ctxSwitch.a) + o.cacheAffinityLoss.a) }) →
      ∃ isrs ts', out = isrs ++ ts' ∧
      (o.tick.a > 0 → isrTask o.tick.a o.quantum o.releaseLatency.a ∈ isrs) ∧
      (ded = false → o.release.a > 0 →
        ∀ t ∈ ts, isrTask o.release.a t.period o.releaseLatency.a ∈ isrs) ∧
      List.Forall₂ (fun t t' => t'.period = t.period ∧ t'.deadline = t.deadline ∧
        t'.jitter = some (t.jitter.getD 0 + (o.releaseLatency.a + o.release.a +
          if ded then o.ipiLatency.a else 0)) ∧
        t'.cost = t.cost + (2 * (o.schedule.a + o.ctxSwitch.a) + o.cacheAffinityLoss.a))
        ts ts' := by
    intro dl hdl ho
    refine ⟨_, _, ho, ?_, ?_, ?_⟩
    · intro ht
      rw [if_pos ht]
      exact List.mem_append_left _ (List.mem_singleton_self _)
    · intro hd hr t ht
      rw [if_pos (show ded = false ∧ o.release.a > 0 from ⟨hd, hr⟩)]
      exact List.mem_append_right _ (List.mem_map.mpr ⟨t, ht, rfl⟩)
    · rw [List.forall₂_map_right_iff, List.forall₂_same]
      intro t _
      exact ⟨rfl, rfl, by simp only [hdl], rfl⟩
  cases ded with
  | false =>
    simp at h
    exact key (o.releaseLatency.a + o.release.a) (by simp) (by rw [← h]; simp)
  | true =>
    by_cases h4 : o.ipiLatency.b = 0
    · simp [h4] at h
      exact key (o.releaseLatency.a + o.release.a + o.ipiLatency.a) (by simp)
        (by rw [← h]; simp)
    · simp [h4] at h

/-- With constant overheads nothing raises. -/
theorem C31_fp_total {o : FpOheads} (ho : o.Const) (ded : Bool) (ts : List FTask) :
    (fpCharge o ded ts).isSome := by
  obtain ⟨h1, h2, h3, h4, h5, h6, h7⟩ := ho
  unfold fpCharge
  by_cases hne : ts = []
  · simp [hne]
  · rw [if_neg hne]
    cases ded <;> simp [LinearEqu.evalList, h1, h2, h3, h4, h5, h6, h7]

example : fpCharge ⟨1000, ⟨3, 0⟩, ⟨10, 0⟩, ⟨5, 0⟩, ⟨4, 0⟩, ⟨1, 0⟩, ⟨2, 0⟩, ⟨20, 0⟩⟩ false
    [⟨100, 1000, 900, none⟩] = some [⟨10, 1000, 1000, some 3⟩, ⟨5, 1000, 1000, some 3⟩,
      ⟨126, 1000, 900, some 8⟩] := by
  decide +kernel

/-- C60 fails for fixed priorities: a release latency that depends on the number of tasks
makes the function raise, whatever the tasks are. -/
theorem C60_fp_violated (o : FpOheads) (ded : Bool) (ts : List FTask) (hne : ts ≠ [])
    (hb : o.releaseLatency.b ≠ 0) : fpCharge o ded ts = none := by
  unfold fpCharge
  rw [if_neg hne]
  simp [LinearEqu.evalList, hb]

example : fpCharge ⟨1000, ⟨3, 1⟩, ⟨10, 0⟩, ⟨5, 0⟩, ⟨4, 0⟩, ⟨1, 0⟩, ⟨2, 0⟩, ⟨20, 0⟩⟩ false
    [⟨100, 1000, 900, none⟩] = none :=
  C60_fp_violated _ _ _ (by simp) (by simp)

/-- Part of C31: rounding for fixed priorities. -/
theorem C31_fp_quantize {ts ts' : List FTask} (h : fpQuantize ts = .accepted ts') :
    List.Forall₂ (fun t t' =>
      (∃ c p d : ℤ, t'.cost = (c : ℚ) ∧ t'.period = (p : ℚ) ∧ t'.deadline = (d : ℚ)) ∧
      t.cost ≤ t'.cost ∧ t'.cost < t.cost + 1 ∧
      t'.period ≤ t.period ∧ t.period < t'.period + 1 ∧
      t'.deadline ≤ t.deadline ∧ t.deadline < t'.deadline + 1 ∧
      (∃ (j : ℚ) (j' : ℤ), t.jitter = some j ∧ t'.jitter = some (j' : ℚ) ∧ j ≤ j' ∧
        (j' : ℚ) < j + 1) ∧
      DensityOk t'.cost t'.period t'.deadline) ts ts' := by
  refine (sweepG_accepted.mp h).imp ?_
  rintro t t' ⟨hf, hc⟩
  cases hj : t.jitter with
  | none => rw [hj] at hf; exact absurd hf (by simp)
  | some j =>
    rw [hj] at hf
    simp only [Option.some.injEq] at hf
    subst hf
    exact ⟨⟨_, _, _, rfl, rfl, rfl⟩, Int.le_ceil _, Int.ceil_lt_add_one _, Int.floor_le _,
      Int.lt_floor_add_one _, Int.floor_le _, Int.lt_floor_add_one _,
      ⟨j, ⌈j⌉, rfl, rfl, Int.le_ceil _, Int.ceil_lt_add_one _⟩, densityAtMostOne_iff.mp hc⟩

example : fpQuantize [⟨5/2, 10, 19/2, some (1/2)⟩] = .accepted [⟨3, 10, 9, some 1⟩] := by
  decide +kernel

/-! ### C31: locking -/

/-- `y` is `x` rounded up to an integer. -/
def RoundedUp (x y : ℚ) : Prop := (∃ k : ℤ, y = k) ∧ x ≤ y ∧ y < x + 1

theorem roundedUp_ceil (x : ℚ) : RoundedUp x (⌈x⌉ : ℤ) :=
  ⟨⟨_, rfl⟩, Int.le_ceil x, Int.ceil_lt_add_one x⟩

theorem spinExtra_eq (rc wc sc : ℚ) (r : Req) : spinExtra rc wc sc r =
    r.maxReads * (rc + sc) + r.maxWrites * (wc + sc) := by
  unfold spinExtra
  by_cases h1 : r.maxReads = 0 <;> by_cases h2 : r.maxWrites = 0 <;> simp [h1, h2] <;> ring

/-- C31 for spinlocks: every request of a kind that is issued is lengthened by the cost of
locking and unlocking, rounded up; each cost grows by the locking and system call
costs of all requests, rounded up; nothing else changes and the densities are at
most one. -/
theorem C31_spinlock {o : Oheads} {ts ts' : List LTask} (h : spinCharge o ts = .accepted ts') :
    List.Forall₂ (fun t t' =>
      t'.period = t.period ∧ t'.deadline = t.deadline ∧ t'.suspended = t.suspended ∧
      (∃ extra : ℚ, t'.cost = t.cost + extra ∧
        RoundedUp ((t.reqs.map (fun r =>
          r.maxReads * (o.readLock ts.length + o.readUnlock ts.length
            + (o.syscallIn ts.length + o.syscallOut ts.length)) +
          r.maxWrites * (o.lock ts.length + o.unlock ts.length
            + (o.syscallIn ts.length + o.syscallOut ts.length)))).sum) extra) ∧
      List.Forall₂ (fun r r' =>
        r'.maxReads = r.maxReads ∧ r'.maxWrites = r.maxWrites ∧
        (0 < r.maxReads → RoundedUp (r.maxReadLength + (o.readLock ts.length
          + o.readUnlock ts.length)) r'.maxReadLength) ∧
        (r.maxReads = 0 → r'.maxReadLength = r.maxReadLength) ∧
        (0 < r.maxWrites → RoundedUp (r.maxWriteLength + (o.lock ts.length
          + o.unlock ts.length)) r'.maxWriteLength) ∧
        (r.maxWrites = 0 → r'.maxWriteLength = r.maxWriteLength)) t.reqs t'.reqs ∧
      DensityOk t'.cost t'.period t'.deadline) ts ts' := by
  refine (sweepG_accepted.mp h).imp ?_
  rintro t t' ⟨hf, hc⟩
  simp only [Option.some.injEq] at hf
  subst hf
  refine ⟨rfl, rfl, rfl, ⟨_, rfl, ?_⟩, ?_, densityAtMostOne_iff.mp hc⟩
  · have : (fun r : Req => spinExtra (o.readLock ts.length + o.readUnlock ts.length)
        (o.lock ts.length + o.unlock ts.length) (o.syscallIn ts.length + o.syscallOut ts.length) r)
        = fun r => r.maxReads * (o.readLock ts.length + o.readUnlock ts.length
            + (o.syscallIn ts.length + o.syscallOut ts.length)) +
          r.maxWrites * (o.lock ts.length + o.unlock ts.length
            + (o.syscallIn ts.length + o.syscallOut ts.length)) :=
      funext fun r => spinExtra_eq _ _ _ r
    rw [← this]
    exact roundedUp_ceil _
  · simp only
    rw [List.forall₂_map_right_iff, List.forall₂_same]
    intro r _
    unfold spinReq
    by_cases h1 : r.maxReads = 0 <;> by_cases h2 : r.maxWrites = 0 <;>
      simp [h1, h2, roundedUp_ceil]

/-- C31 for semaphore protocols: requests are only lengthened (by at least the remote and,
for non-preemptive protocols, local overheads), execution cost and, for
suspension-aware analysis, suspension time grow by the per-request charges, rounded
up; the densities are at most one. -/
theorem C31_semaphore {o : Oheads} {pre sa : Bool} {ts ts' : List LTask}
    (h : semCharge o pre sa ts = .accepted ts') :
    List.Forall₂ (fun t t' =>
      t'.period = t.period ∧ t'.deadline = t.deadline ∧
      (∃ e : ℚ, t'.cost = t.cost + e ∧
        RoundedUp ((t.reqs.map (fun r => (r.maxWrites : ℚ) *
          (3 * (o.schedule ts.length + o.ctxSwitch ts.length) + 2 * o.syscallIn ts.length
            + 2 * o.syscallOut ts.length + o.lock ts.length + o.unlock ts.length
            + 2 * o.cacheAffinityLoss ts.length
            + if sa then 0 else o.ipiLatency ts.length))).sum) e) ∧
      (sa = false → t'.suspended = t.suspended) ∧
      (sa = true → ∃ s : ℚ, t'.suspended = t.suspended + s ∧
        RoundedUp ((t.reqs.map (fun r => (r.maxWrites : ℚ) * o.ipiLatency ts.length)).sum) s) ∧
      List.Forall₂ (fun r r' =>
        r'.maxReads = r.maxReads ∧ r'.maxWrites = r.maxWrites ∧
        r'.maxReadLength = r.maxReadLength ∧
        (r.maxWrites = 0 → r' = r) ∧
        (0 < r.maxWrites → RoundedUp (r.maxWriteLength + (o.ipiLatency ts.length
          + (o.schedule ts.length + o.ctxSwitch ts.length) + o.syscallOut ts.length
          + o.syscallIn ts.length + o.unlock ts.length
          + if pre then o.schedule ts.length + o.ctxSwitch ts.length else 0))
            r'.maxWriteLength) ∧
        (0 < r.maxWrites → pre = false → ∃ l, r'.writeLengthLocal = some l ∧
          RoundedUp (r.maxWriteLength + (o.ipiLatency ts.length
          + 2 * (o.schedule ts.length + o.ctxSwitch ts.length) + o.syscallOut ts.length
          + o.syscallIn ts.length + o.unlock ts.length)) l)) t.reqs t'.reqs ∧
      DensityOk t'.cost t'.period t'.deadline) ts ts' := by
  refine (sweepG_accepted.mp h).imp ?_
  rintro t t' ⟨hf, hc⟩
  by_cases hr : (t.reqs.any fun r => decide (r.maxReads ≠ 0)) = true
  · rw [if_pos hr] at hf; exact absurd hf (by simp)
  rw [if_neg hr] at hf
  simp only [Option.some.injEq] at hf
  subst hf
  refine ⟨rfl, rfl, ⟨_, rfl, ?_⟩, ?_, ?_, ?_, densityAtMostOne_iff.mp hc⟩
  · have : semExec o ts.length sa = 3 * (o.schedule ts.length + o.ctxSwitch ts.length)
        + 2 * o.syscallIn ts.length + 2 * o.syscallOut ts.length + o.lock ts.length
        + o.unlock ts.length + 2 * o.cacheAffinityLoss ts.length
        + if sa then 0 else o.ipiLatency ts.length := by
      unfold semExec
      cases sa <;> simp
    rw [← this]
    exact roundedUp_ceil _
  · rintro rfl; simp
  · rintro rfl
    refine ⟨_, by simp only [if_true]; rfl, ?_⟩
    exact roundedUp_ceil _
  · simp only
    rw [List.forall₂_map_right_iff, List.forall₂_same]
    intro r _
    unfold semReq
    by_cases h2 : r.maxWrites = 0
    · simp [h2]
    · have hp : 0 < r.maxWrites := Nat.pos_of_ne_zero h2
      rw [if_pos h2]
      refine ⟨rfl, rfl, rfl, fun h => absurd h h2, fun _ => ?_, fun _ hpre => ?_⟩
      · have : semCs o ts.length pre = o.ipiLatency ts.length
          + (o.schedule ts.length + o.ctxSwitch ts.length) + o.syscallOut ts.length
          + o.syscallIn ts.length + o.unlock ts.length
          + if pre then o.schedule ts.length + o.ctxSwitch ts.length else 0 := by
          unfold semCs
          cases pre <;> simp
        rw [← this]
        exact roundedUp_ceil _
      · subst hpre
        refine ⟨_, rfl, ?_⟩
        have : semCsLocal o ts.length = o.ipiLatency ts.length
          + 2 * (o.schedule ts.length + o.ctxSwitch ts.length) + o.syscallOut ts.length
          + o.syscallIn ts.length + o.unlock ts.length := by
          unfold semCsLocal semCs
          simp only [Bool.false_eq_true, if_false]
          ring
        rw [← this]
        exact roundedUp_ceil _

/-- C31 for the DPCP. -/
theorem C31_dpcp {o : Oheads} {ts ts' : List LTask} (h : dpcpCharge o ts = .accepted ts') :
    List.Forall₂ (fun t t' =>
      t'.period = t.period ∧ t'.deadline = t.deadline ∧
      (∃ e : ℚ, t'.cost = t.cost + e ∧
        RoundedUp ((t.reqs.map (fun r => (r.maxWrites : ℚ) *
          (o.syscallIn ts.length + o.syscallOut ts.length
            + 2 * (o.schedule ts.length + o.ctxSwitch ts.length)
            + 2 * o.cacheAffinityLoss ts.length))).sum) e) ∧
      (∃ s : ℚ, t'.suspended = t.suspended + s ∧
        RoundedUp ((t.reqs.map (fun r => (r.maxWrites : ℚ) * (2 * o.ipiLatency ts.length +
          (3 * (o.schedule ts.length + o.ctxSwitch ts.length) + o.syscallIn ts.length
            + o.syscallOut ts.length + o.lock ts.length + o.unlock ts.length)))).sum) s) ∧
      List.Forall₂ (fun r r' =>
        r'.maxReads = r.maxReads ∧ r'.maxWrites = r.maxWrites ∧
        r'.maxReadLength = r.maxReadLength ∧ (r.maxWrites = 0 → r' = r) ∧
        (0 < r.maxWrites → RoundedUp (r.maxWriteLength +
          (3 * (o.schedule ts.length + o.ctxSwitch ts.length) + o.syscallIn ts.length
            + o.syscallOut ts.length + o.lock ts.length + o.unlock ts.length))
            r'.maxWriteLength)) t.reqs t'.reqs ∧
      DensityOk t'.cost t'.period t'.deadline) ts ts' := by
  refine (sweepG_accepted.mp h).imp ?_
  rintro t t' ⟨hf, hc⟩
  by_cases hr : (t.reqs.any fun r => decide (r.maxReads ≠ 0)) = true
  · rw [if_pos hr] at hf; exact absurd hf (by simp)
  rw [if_neg hr] at hf
  simp only [Option.some.injEq] at hf
  subst hf
  refine ⟨rfl, rfl, ⟨_, rfl, roundedUp_ceil _⟩, ⟨_, rfl, roundedUp_ceil _⟩, ?_,
    densityAtMostOne_iff.mp hc⟩
  simp only
  rw [List.forall₂_map_right_iff, List.forall₂_same]
  intro r _
  unfold dpcpReq
  by_cases h2 : r.maxWrites = 0
  · simp [h2]
  · rw [if_pos h2]
    exact ⟨rfl, rfl, rfl, fun h => absurd h h2, fun _ => roundedUp_ceil _⟩

example : ∃ ts', spinCharge (smallOheads 0) [⟨10, 100, 90, 0, [⟨1, 2, 5, 7/2, none⟩]⟩]
    = .accepted ts' ∧ decide (ts'.map LTask.cost = [22]) = true :=
  Outcome.acceptedWith_elim (by decide +kernel)

example : ∃ ts', semCharge (smallOheads 0) false true [⟨10, 1000, 900, 0, [⟨1, 0, 5, 0, none⟩]⟩]
    = .accepted ts' ∧ decide (ts'.map LTask.suspended = [4]) = true :=
  Outcome.acceptedWith_elim (by decide +kernel)

example : ∃ ts', dpcpCharge (smallOheads 0) [⟨10, 1000, 900, 0, [⟨1, 0, 5, 0, none⟩]⟩]
    = .accepted ts' ∧ decide (ts'.map LTask.suspended = [27]) = true :=
  Outcome.acceptedWith_elim (by decide +kernel)

end Verif.Oh
