import Verif.Spec.Dpcp
import Verif.Lemmas.Schedule

/-! Finite runs with resources, given by a table with any number of jobs of each task: used to show that concrete runs
satisfy the specification of the DPCP. -/

namespace Verif.Spec
open Finset

/-- A section of a job. -/
structure JSec (n : ℕ) where
  job : Job n
  idx : ℕ
  inst : ℕ
  enter : ℕ
  acquire : ℕ
  leave : ℕ
deriving DecidableEq

/-- The jobs of all tasks: when the first ones are released (the others follow periodically), how long each of them
executes, which of them execute, when they use resources. -/
structure JTable (n : ℕ) where
  off : Fin n → ℕ
  exec : Fin n → List ℕ
  slots : List (Finset (Job n))
  secs : List (JSec n)

namespace JSec
variable {n : ℕ}

/-- The section. -/
def sec (c : JSec n) : Section n := ⟨c.job, c.idx, c.inst⟩

/-- The resource of a section. -/
def res (S : LockSystem n) (c : JSec n) : Option ℕ := ((S.reqs c.job.1)[c.idx]?).map (·.res)

def Wt (c : JSec n) (t : ℕ) : Prop := c.enter ≤ t ∧ t < c.acquire

def Ow (c : JSec n) (t : ℕ) : Prop := c.acquire ≤ t ∧ t < c.leave

instance (c : JSec n) (t : ℕ) : Decidable (c.Wt t) := inferInstanceAs (Decidable (_ ∧ _))
instance (c : JSec n) (t : ℕ) : Decidable (c.Ow t) := inferInstanceAs (Decidable (_ ∧ _))

/-- The processor of a section. -/
def cpu (S : LockSystem n) (loc : ℕ → ℕ) (c : JSec n) : Option ℕ := (c.res S).map loc

/-- Task `x` uses the resource of a section. -/
def UsedBy (S : LockSystem n) (c : JSec n) (x : Fin n) : Prop := ∃ q ∈ S.reqs x, c.res S = some q.res

instance (S : LockSystem n) (c : JSec n) (x : Fin n) : Decidable (c.UsedBy S x) := by
  unfold UsedBy
  infer_instance

theorem for_iff {S : LockSystem n} {c : JSec n} {r : ℕ} : S.For c.sec r ↔ c.res S = some r := by
  unfold LockSystem.For JSec.res JSec.sec
  rw [Option.map_eq_some_iff]

end JSec

namespace JTable
variable {n : ℕ} (T : JTable n)

/-- Who executes. -/
def at_ (t : ℕ) : Finset (Job n) := T.slots.getD t ∅

/-- Execution time of a job. -/
def work (j : Job n) : ℕ := (T.exec j.1).getD j.2 0

/-- The jobs that execute at all. -/
def jobs : List (Job n) := (List.finRange n).flatMap (fun i => (List.range (T.exec i).length).map (fun q => (i, q)))

/-- The entry for a section. -/
def entry (s : Section n) : Option (JSec n) := T.secs.find? (fun c => c.sec = s)

/-- The run. -/
def run (S : LockSystem n) : LockRun n where
  work := ⟨fun j => T.off j.1 + S.period j.1 * j.2, T.work⟩
  sched t := T.at_ t
  issued s := ∃ c ∈ T.secs, c.sec = s
  enter s := (T.entry s).elim 0 JSec.enter
  acquire s := (T.entry s).elim 0 JSec.acquire
  leave s := (T.entry s).elim 0 JSec.leave

/-- Service of a job. -/
def svc (j : Job n) (t : ℕ) : ℕ := ((range t).filter (fun s => j ∈ T.at_ s)).card

/-- A job is ready. -/
def Rdy (S : LockSystem n) (j : Job n) (t : ℕ) : Prop :=
  (T.off j.1 + S.period j.1 * j.2 ≤ t ∧ T.svc j t < T.work j) ∧
    ∀ k ∈ range j.2, T.work (j.1, k) ≤ T.svc (j.1, k) t

instance (S : LockSystem n) (j : Job n) (t : ℕ) : Decidable (T.Rdy S j t) := by
  unfold Rdy
  infer_instance

/-- What has to be checked for any protocol. -/
def ReqOk (m : ℕ) (S : LockSystem n) : Prop :=
  (∀ j ∈ T.jobs, T.work j ≤ S.cost j.1 ∧ T.work j ≤ T.svc j T.slots.length) ∧
  (∀ t ∈ range T.slots.length, (T.at_ t).card ≤ m ∧ ∀ j ∈ T.at_ t, T.Rdy S j t) ∧
  (∀ c ∈ T.secs, ((S.reqs c.job.1)[c.idx]?).any (fun q => decide (c.inst < q.num ∧
    ((Ico c.acquire c.leave).filter (fun t => c.job ∈ T.at_ t)).card ≤ q.len))) ∧
  (∀ c ∈ T.secs, c.enter ≤ c.acquire ∧ c.acquire ≤ c.leave ∧
    ∀ t ∈ Ico c.enter c.leave, T.Rdy S c.job t ∧ (t < c.acquire → c.job ∉ T.at_ t)) ∧
  (∀ c ∈ T.secs, ∀ c' ∈ T.secs, c.job = c'.job → c ≠ c' →
    c.sec ≠ c'.sec ∧ (c.leave ≤ c'.enter ∨ c'.leave ≤ c.enter))

instance (m : ℕ) (S : LockSystem n) : Decidable (T.ReqOk m S) := by
  unfold ReqOk
  infer_instance

variable {T} {m : ℕ} {S : LockSystem n} {loc : ℕ → ℕ}

theorem mem_run {j : Job n} {t : ℕ} : j ∈ (T.run S).sched t ↔ j ∈ T.at_ t := Iff.rfl

theorem service_run (j : Job n) (t : ℕ) : service (T.run S).sched j t = T.svc j t := by
  unfold service svc
  congr 1

theorem ready_run {j : Job n} {t : ℕ} : Ready (T.run S).work (T.run S).sched j t ↔ T.Rdy S j t := by
  unfold Ready Pending Completed Rdy
  simp only [service_run, mem_range, not_le]
  rfl

theorem mem_jobs {j : Job n} (h : 0 < T.work j) : j ∈ T.jobs := by
  obtain ⟨i, q⟩ := j
  unfold jobs
  rw [List.mem_flatMap]
  refine ⟨i, List.mem_finRange i, List.mem_map.2 ⟨q, List.mem_range.2 ?_, rfl⟩⟩
  by_contra hc
  have h' : 0 < (T.exec i).getD q 0 := h
  rw [List.getD_eq_getElem?_getD, List.getElem?_eq_none (not_lt.1 hc)] at h'
  exact absurd h' (by simp)

theorem at_empty {t : ℕ} (h : T.slots.length ≤ t) : T.at_ t = ∅ := by
  unfold at_
  rw [List.getD_eq_getElem?_getD, List.getElem?_eq_none h]
  rfl

theorem ReqOk.rdy_lt (h : T.ReqOk m S) {j : Job n} {t : ℕ} (hr : T.Rdy S j t) :
    t < T.slots.length ∧ j ∈ T.jobs := by
  have hr2 := hr.1.2
  have hj : j ∈ T.jobs := mem_jobs (by omega)
  refine ⟨?_, hj⟩
  by_contra hc
  have h1 := (h.1 j hj).2
  have h2 : T.svc j T.slots.length ≤ T.svc j t := card_le_card (by
    intro s hs
    rw [mem_filter, mem_range] at hs ⊢
    exact ⟨by omega, hs.2⟩)
  omega

theorem ReqOk.entry_eq (h : T.ReqOk m S) {c : JSec n} (hc : c ∈ T.secs) : T.entry c.sec = some c := by
  unfold entry
  cases hf : T.secs.find? (fun c' => c'.sec = c.sec) with
  | none =>
    rw [List.find?_eq_none] at hf
    exact absurd (hf c hc) (by simp)
  | some c' =>
    have h1 := List.find?_some hf
    have h2 := List.mem_of_find?_eq_some hf
    simp only [decide_eq_true_eq] at h1
    by_cases hne : c' = c
    · rw [hne]
    · have ht : c'.job = c.job := by
        have := congrArg Section.job h1
        exact this
      exact absurd h1 (h.2.2.2.2 c' h2 c hc ht hne).1

theorem ReqOk.enter_eq (h : T.ReqOk m S) {c : JSec n} (hc : c ∈ T.secs) : (T.run S).enter c.sec = c.enter := by
  show (T.entry c.sec).elim 0 JSec.enter = _
  rw [h.entry_eq hc]; rfl

theorem ReqOk.acquire_eq (h : T.ReqOk m S) {c : JSec n} (hc : c ∈ T.secs) : (T.run S).acquire c.sec = c.acquire := by
  show (T.entry c.sec).elim 0 JSec.acquire = _
  rw [h.entry_eq hc]; rfl

theorem ReqOk.leave_eq (h : T.ReqOk m S) {c : JSec n} (hc : c ∈ T.secs) : (T.run S).leave c.sec = c.leave := by
  show (T.entry c.sec).elim 0 JSec.leave = _
  rw [h.entry_eq hc]; rfl

theorem ReqOk.waits_iff (h : T.ReqOk m S) {c : JSec n} (hc : c ∈ T.secs) {t : ℕ} :
    (T.run S).Waits c.sec t ↔ c.Wt t := by
  unfold LockRun.Waits JSec.Wt
  rw [h.enter_eq hc, h.acquire_eq hc]
  exact ⟨fun h => h.2, fun h => ⟨⟨c, hc, rfl⟩, h⟩⟩

theorem ReqOk.owns_iff (h : T.ReqOk m S) {c : JSec n} (hc : c ∈ T.secs) {t : ℕ} :
    (T.run S).Owns c.sec t ↔ c.Ow t := by
  unfold LockRun.Owns JSec.Ow
  rw [h.leave_eq hc, h.acquire_eq hc]
  exact ⟨fun h => h.2, fun h => ⟨⟨c, hc, rfl⟩, h⟩⟩

theorem ReqOk.requestRun (h : T.ReqOk m S) : RequestRun m S (T.run S) := by
  obtain ⟨h1, h2, h3, h4, h5⟩ := id h
  constructor
  · constructor
    · intro i k
      show T.off i + S.period i * k + S.period i ≤ T.off i + S.period i * (k + 1)
      rw [Nat.mul_add]; omega
    · intro i k
      show T.work (i, k) ≤ _
      by_cases h0 : 0 < T.work (i, k)
      · exact (h1 _ (mem_jobs h0)).1
      · omega
  · constructor
    · intro t
      change (T.at_ t).card ≤ m
      by_cases ht : t < T.slots.length
      · exact (h2 t (mem_range.2 ht)).1
      · rw [at_empty (not_lt.1 ht)]; simp
    · intro t j hj
      rw [mem_run] at hj
      rw [ready_run]
      have ht : t < T.slots.length := by
        by_contra hc
        rw [at_empty (not_lt.1 hc)] at hj
        simp at hj
      exact (h2 t (mem_range.2 ht)).2 j hj
  · rintro s ⟨c, hc, rfl⟩
    have := h3 c hc
    rw [Option.any_eq_true] at this
    obtain ⟨q, hq, hd⟩ := this
    exact ⟨q, hq, (of_decide_eq_true hd).1⟩
  · rintro s ⟨c, hc, rfl⟩
    rw [h.enter_eq hc, h.acquire_eq hc, h.leave_eq hc]
    exact ⟨(h4 c hc).1, (h4 c hc).2.1⟩
  · rintro s t ⟨c, hc, rfl⟩ he hl
    rw [h.enter_eq hc] at he
    rw [h.leave_eq hc] at hl
    rw [ready_run]
    exact ((h4 c hc).2.2 t (mem_Ico.2 ⟨he, hl⟩)).1
  · rintro s q ⟨c, hc, rfl⟩ hq
    have := h3 c hc
    rw [Option.any_eq_true] at this
    obtain ⟨q', hq', hd⟩ := this
    have e : q' = q := Option.some.inj (hq'.symm.trans hq)
    subst e
    rw [h.acquire_eq hc, h.leave_eq hc]
    exact (of_decide_eq_true hd).2
  · rintro s s' ⟨c, hc, rfl⟩ ⟨c', hc', rfl⟩ hj hne
    rw [h.enter_eq hc, h.enter_eq hc', h.leave_eq hc, h.leave_eq hc']
    exact (h5 c hc c' hc' hj (fun e => hne (e ▸ rfl))).2
  · rintro s t hw
    obtain ⟨c, hc, rfl⟩ := hw.1
    have hw' := (h.waits_iff hc).1 hw
    rw [mem_run]
    intro hm
    have h8 := h4 c hc
    exact (h8.2.2 t (mem_Ico.2 ⟨hw'.1, by have := hw'.2; omega⟩)).2 hw'.2 hm

/-- Job `i` does not own a resource. -/
def Free (T : JTable n) (i : Job n) (t : ℕ) : Prop := ∀ c ∈ T.secs, c.job = i → ¬ c.Ow t

instance (T : JTable n) (i : Job n) (t : ℕ) : Decidable (T.Free i t) := by
  unfold Free
  infer_instance

/-- Where a job executes. -/
def OnCpu (T : JTable n) (S : LockSystem n) (loc : ℕ → ℕ) (i : Job n) (t p : ℕ) : Prop :=
  (∃ c ∈ T.secs, c.job = i ∧ c.Ow t ∧ c.cpu S loc = some p) ∨ (T.Free i t ∧ S.proc i.1 = p)

instance (T : JTable n) (S : LockSystem n) (loc : ℕ → ℕ) (i : Job n) (t p : ℕ) : Decidable (T.OnCpu S loc i t p) := by
  unfold OnCpu
  infer_instance

/-- One job on each processor. -/
def OneOk (T : JTable n) (S : LockSystem n) (loc : ℕ → ℕ) : Prop :=
  ∀ t ∈ range T.slots.length, ∀ i ∈ T.at_ t, ∀ i' ∈ T.at_ t, i ≠ i' →
    (∀ c ∈ T.secs, c.job = i ∧ c.Ow t → ∀ c' ∈ T.secs, c'.job = i' ∧ c'.Ow t → c.cpu S loc ≠ c'.cpu S loc) ∧
    (∀ c ∈ T.secs, c.job = i ∧ c.Ow t ∧ T.Free i' t → c.cpu S loc ≠ some (S.proc i'.1)) ∧
    (T.Free i t ∧ T.Free i' t → S.proc i.1 ≠ S.proc i'.1)

instance (T : JTable n) (S : LockSystem n) (loc : ℕ → ℕ) : Decidable (T.OneOk S loc) := by
  unfold OneOk
  infer_instance

/-- Requests are granted to executing agents, and respect ceilings. -/
def GrantOk (T : JTable n) (S : LockSystem n) (prio : Fin n → ℕ) (loc : ℕ → ℕ) : Prop :=
  ∀ c ∈ T.secs, c.acquire < c.leave → c.job ∈ T.at_ c.acquire ∧
    ∀ c' ∈ T.secs, c'.job ≠ c.job ∧ c'.Ow c.acquire ∧ c'.cpu S loc = c.cpu S loc →
      ∀ x, c'.UsedBy S x → prio c.job.1 < prio x

instance (T : JTable n) (S : LockSystem n) (prio : Fin n → ℕ) (loc : ℕ → ℕ) : Decidable (T.GrantOk S prio loc) := by
  unfold GrantOk
  infer_instance

/-- Requests are served. -/
def AgentOk (T : JTable n) (S : LockSystem n) (prio : Fin n → ℕ) (loc : ℕ → ℕ) : Prop :=
  ∀ c ∈ T.secs, ∀ t ∈ Ico c.enter c.leave, c.job ∉ T.at_ t →
    ∃ c' ∈ T.secs, c'.job ∈ T.at_ t ∧ c'.Ow t ∧ c'.cpu S loc = c.cpu S loc ∧
      (prio c'.job.1 ≤ prio c.job.1 ∨ c'.acquire < t ∧ ∃ x, c'.UsedBy S x ∧ prio x ≤ prio c.job.1)

instance (T : JTable n) (S : LockSystem n) (prio : Fin n → ℕ) (loc : ℕ → ℕ) : Decidable (T.AgentOk S prio loc) := by
  unfold AgentOk
  infer_instance

/-- Jobs are served. -/
def JobOk (T : JTable n) (S : LockSystem n) (prio : Fin n → ℕ) (loc : ℕ → ℕ) : Prop :=
  ∀ t ∈ range T.slots.length, ∀ i ∈ T.jobs, (T.Rdy S i t ∧ i ∉ T.at_ t ∧
      ∀ c ∈ T.secs, c.job = i → c.enter ≤ t → c.leave ≤ t) →
    ∃ i' ∈ T.at_ t, T.OnCpu S loc i' t (S.proc i.1) ∧ (¬ T.Free i' t ∨ prio i'.1 ≤ prio i.1)

instance (T : JTable n) (S : LockSystem n) (prio : Fin n → ℕ) (loc : ℕ → ℕ) : Decidable (T.JobOk S prio loc) := by
  unfold JobOk
  infer_instance

theorem cpu_iff {c : JSec n} {r : ℕ} (h : S.For c.sec r) : c.cpu S loc = some (loc r) := by
  unfold JSec.cpu
  rw [JSec.for_iff.1 h]
  rfl

theorem ReqOk.exists_for (h : T.ReqOk m S) {c : JSec n} (hc : c ∈ T.secs) : ∃ r, S.For c.sec r := by
  have h3 := h.2.2.1 c hc
  rw [Option.any_eq_true] at h3
  obtain ⟨q, hq, -⟩ := h3
  exact ⟨q.res, q, hq, rfl⟩

theorem usedBy_iff {c : JSec n} {r : ℕ} (h : S.For c.sec r) {x : Fin n} : c.UsedBy S x ↔ S.Uses x r := by
  unfold JSec.UsedBy LockSystem.Uses
  rw [JSec.for_iff.1 h]
  constructor
  · rintro ⟨q, hq, he⟩
    exact ⟨q, hq, (Option.some.inj he).symm⟩
  · rintro ⟨q, hq, he⟩
    exact ⟨q, hq, by rw [he]⟩

theorem ReqOk.free_iff (h : T.ReqOk m S) {i : Job n} {t : ℕ} :
    T.Free i t ↔ ∀ s, s.job = i → ¬ (T.run S).Owns s t := by
  unfold Free
  constructor
  · intro hf s hs ho
    obtain ⟨c, hc, rfl⟩ := ho.1
    exact hf c hc hs ((h.owns_iff hc).1 ho)
  · intro hf c hc hi ho
    exact hf c.sec (by unfold JSec.sec; rw [hi]) ((h.owns_iff hc).2 ho)

theorem ReqOk.on_iff (h : T.ReqOk m S) {i : Job n} {t p : ℕ} :
    (T.run S).On S loc i t p ↔ T.OnCpu S loc i t p := by
  unfold LockRun.On OnCpu
  rw [h.free_iff]
  apply or_congr _ Iff.rfl
  constructor
  · rintro ⟨s, r, hs, ho, hf, hl⟩
    obtain ⟨c, hc, rfl⟩ := ho.1
    exact ⟨c, hc, hs, (h.owns_iff hc).1 ho, by rw [cpu_iff hf, hl]⟩
  · rintro ⟨c, hc, hi, ho, hl⟩
    obtain ⟨r, hr⟩ := h.exists_for hc
    rw [cpu_iff hr] at hl
    exact ⟨c.sec, r, by unfold JSec.sec; rw [hi], (h.owns_iff hc).2 ho, hr, Option.some.inj hl⟩

theorem ReqOk.one (h : T.ReqOk m S) (h1 : T.OneOk S loc) :
    ∀ t c, ∀ j ∈ (T.run S).sched t, ∀ j' ∈ (T.run S).sched t, (T.run S).On S loc j t c → (T.run S).On S loc j' t c →
      j = j' := by
  rintro t p i hi i' hi' ho ho'
  rw [mem_run] at hi hi'
  rw [h.on_iff] at ho ho'
  by_contra hne'
  have ht : t < T.slots.length := by
    by_contra hc
    rw [at_empty (not_lt.1 hc)] at hi
    simp at hi
  have k1 := h1 t (mem_range.2 ht) i hi i' hi' hne'
  have k2 := h1 t (mem_range.2 ht) i' hi' i hi (Ne.symm hne')
  rcases ho with ⟨c, hc, a1, a2, a3⟩ | ⟨a1, a2⟩ <;> rcases ho' with ⟨c', hc', b1, b2, b3⟩ | ⟨b1, b2⟩
  · exact k1.1 c hc ⟨a1, a2⟩ c' hc' ⟨b1, b2⟩ (a3.trans b3.symm)
  · exact k1.2.1 c hc ⟨a1, a2, b1⟩ (by rw [a3, b2])
  · exact k2.2.1 c' hc' ⟨b1, b2, a1⟩ (by rw [b3, a2])
  · exact k1.2.2 ⟨a1, b1⟩ (a2.trans b2.symm)

theorem ReqOk.jobs_ok (h : T.ReqOk m S) {prio : Fin n → ℕ} (h4 : T.JobOk S prio loc) :
    ∀ t j, Ready (T.run S).work (T.run S).sched j t → j ∉ (T.run S).sched t →
    (∀ s, s.job = j → (T.run S).issued s → (T.run S).enter s ≤ t → (T.run S).leave s ≤ t) →
    ∃ j' ∈ (T.run S).sched t, (T.run S).On S loc j' t (S.proc j.1) ∧
      ((∃ s, s.job = j' ∧ (T.run S).Owns s t) ∨ prio j'.1 ≤ prio j.1) := by
  rintro t i hr hn hs
  rw [ready_run] at hr
  obtain ⟨i', hi', hon, hcase⟩ := h4 t (mem_range.2 (h.rdy_lt hr).1) i (h.rdy_lt hr).2 ⟨hr, hn, by
    intro c hc hi he
    have := hs c.sec (by unfold JSec.sec; rw [hi]) ⟨c, hc, rfl⟩ (by rw [h.enter_eq hc]; exact he)
    rw [h.leave_eq hc] at this
    exact this⟩
  refine ⟨i', hi', h.on_iff.2 hon, ?_⟩
  rcases hcase with hcase | hcase
  · left
    rw [h.free_iff] at hcase
    push Not at hcase
    exact hcase
  · exact Or.inr hcase

theorem ReqOk.dpcp (h : T.ReqOk n S) {prio : Fin n → ℕ} (h1 : T.OneOk S loc) (h2 : T.GrantOk S prio loc)
    (h3 : T.AgentOk S prio loc) (h4 : T.JobOk S prio loc) : Dpcp S prio loc (T.run S) where
  toRequestRun := h.requestRun
  one := h.one h1
  granted := by
    rintro s ⟨c, hc, rfl⟩ hl
    rw [h.acquire_eq hc, h.leave_eq hc] at hl
    rw [h.acquire_eq hc, mem_run]
    exact (h2 c hc hl).1
  ceiling := by
    rintro s s' r r' ⟨c, hc, rfl⟩ hl hne ho hf hf' hloc x hx
    obtain ⟨c', hc', rfl⟩ := ho.1
    rw [h.acquire_eq hc, h.leave_eq hc] at hl
    rw [h.acquire_eq hc, h.owns_iff hc'] at ho
    exact (h2 c hc hl).2 c' hc' ⟨fun he => hne (by unfold JSec.sec; rw [he]), ho, by rw [cpu_iff hf, cpu_iff hf', hloc]⟩
      x ((usedBy_iff hf').2 hx)
  agents := by
    rintro s r t ⟨c, hc, rfl⟩ h5 h6 h7 hf
    rw [h.enter_eq hc] at h5
    rw [h.leave_eq hc] at h6
    rw [mem_run] at h7
    obtain ⟨c', hc', a1, a2, a3, a4⟩ := h3 c hc t (mem_Ico.2 ⟨h5, h6⟩) h7
    obtain ⟨r', hr'⟩ := h.exists_for hc'
    rw [cpu_iff hf, cpu_iff hr'] at a3
    refine ⟨c'.sec, r', a1, (h.owns_iff hc').2 a2, hr', Option.some.inj a3, ?_⟩
    rcases a4 with a4 | ⟨a4, x, a5, a6⟩
    · exact Or.inl a4
    · refine Or.inr ⟨?_, x, (usedBy_iff hr').1 a5, a6⟩
      rw [h.acquire_eq hc']
      exact a4
  jobs := h.jobs_ok h4

/-- Job `j` has a request on another processor. -/
def Away (T : JTable n) (S : LockSystem n) (loc : ℕ → ℕ) (j : Job n) (t : ℕ) : Prop :=
  ∃ c ∈ T.secs, c.job = j ∧ c.enter ≤ t ∧ t < c.leave ∧ c.cpu S loc ≠ some (S.proc j.1)

instance (T : JTable n) (S : LockSystem n) (loc : ℕ → ℕ) (j : Job n) (t : ℕ) : Decidable (T.Away S loc j t) := by
  unfold Away
  infer_instance

/-- Requests are issued and completed as they should. -/
def PromptOk (T : JTable n) (S : LockSystem n) (prio : Fin n → ℕ) (loc : ℕ → ℕ) : Prop :=
  ∀ c ∈ T.secs, (c.enter < c.leave → c.job ∈ T.at_ (c.leave - 1)) ∧
    ∀ j ∈ T.jobs, (0 < c.enter ∧ S.proc j.1 = S.proc c.job.1 ∧ prio j.1 < prio c.job.1 ∧
      T.Rdy S j (c.enter - 1) ∧ ¬ T.Away S loc j (c.enter - 1) ∧ T.Rdy S j c.enter) → T.Away S loc j c.enter

instance (T : JTable n) (S : LockSystem n) (prio : Fin n → ℕ) (loc : ℕ → ℕ) : Decidable (T.PromptOk S prio loc) := by
  unfold PromptOk
  infer_instance

theorem ReqOk.away_iff (h : T.ReqOk m S) {j : Job n} {t : ℕ} : (T.run S).Away S loc j t ↔ T.Away S loc j t := by
  unfold LockRun.Away Away
  constructor
  · rintro ⟨s, r, rfl, ⟨c, hc, rfl⟩, a1, a2, a3, a4⟩
    rw [h.enter_eq hc] at a1
    rw [h.leave_eq hc] at a2
    exact ⟨c, hc, rfl, a1, a2, by rw [cpu_iff a3]; exact fun e => a4 (Option.some.inj e)⟩
  · rintro ⟨c, hc, rfl, a1, a2, a4⟩
    obtain ⟨r, hr⟩ := h.exists_for hc
    refine ⟨c.sec, r, rfl, ⟨c, hc, rfl⟩, by rw [h.enter_eq hc]; exact a1, by rw [h.leave_eq hc]; exact a2, hr, ?_⟩
    rw [cpu_iff hr] at a4
    exact fun e => a4 (congrArg some e)

theorem ReqOk.issue_ok (h : T.ReqOk m S) {prio : Fin n → ℕ} (h5 : T.PromptOk S prio loc) :
    ∀ s j, (T.run S).issued s → 0 < (T.run S).enter s → S.proc j.1 = S.proc s.job.1 → prio j.1 < prio s.job.1 →
    Ready (T.run S).work (T.run S).sched j ((T.run S).enter s - 1) → ¬ (T.run S).Away S loc j ((T.run S).enter s - 1) →
    Ready (T.run S).work (T.run S).sched j ((T.run S).enter s) → (T.run S).Away S loc j ((T.run S).enter s) := by
  rintro s j ⟨c, hc, rfl⟩ a1 a2 a3 a4 a5 a6
  rw [h.enter_eq hc] at *
  rw [ready_run] at a4 a6
  rw [h.away_iff] at a5 ⊢
  exact (h5 c hc).2 j (h.rdy_lt a6).2 ⟨a1, a2, a3, a4, a5, a6⟩

theorem ReqOk.dpcpPrompt (h : T.ReqOk n S) {prio : Fin n → ℕ} (h1 : T.OneOk S loc) (h2 : T.GrantOk S prio loc)
    (h3 : T.AgentOk S prio loc) (h4 : T.JobOk S prio loc) (h5 : T.PromptOk S prio loc) :
    DpcpPrompt S prio loc (T.run S) where
  toDpcp := h.dpcp h1 h2 h3 h4
  issue := h.issue_ok h5
  finish := by
    rintro s ⟨c, hc, rfl⟩ a1
    rw [h.enter_eq hc, h.leave_eq hc] at a1
    rw [h.leave_eq hc]
    exact (h5 c hc).1 a1

end JTable
end Verif.Spec
