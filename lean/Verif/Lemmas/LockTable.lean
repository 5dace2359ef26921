import Verif.Spec.Pip
import Verif.Lemmas.Schedule

/-! Finite runs with resources, given by a table: used to show that concrete runs satisfy the
specifications. -/

namespace Verif.Spec
open Finset

/-- A section of the first job of a task. -/
structure Sec (n : ℕ) where
  task : Fin n
  idx : ℕ
  inst : ℕ
  enter : ℕ
  acquire : ℕ
  leave : ℕ
deriving DecidableEq

/-- The first jobs of all tasks: when they are released, when they execute, when they use
resources. -/
structure Table (n : ℕ) where
  off : Fin n → ℕ
  exec : Fin n → ℕ
  slots : List (Finset (Fin n))
  secs : List (Sec n)

namespace Table
variable {n : ℕ} (T : Table n)

/-- Who executes. -/
def at_ (t : ℕ) : Finset (Fin n) := T.slots.getD t ∅

/-- The section. -/
def _root_.Verif.Spec.Sec.sec (c : Sec n) : Section n := ⟨(c.task, 0), c.idx, c.inst⟩

/-- The entry for a section. -/
def entry (s : Section n) : Option (Sec n) := T.secs.find? (fun c => c.sec = s)

/-- The run: later jobs have nothing to execute. -/
def run (S : LockSystem n) : LockRun n where
  work := ⟨fun j => T.off j.1 + S.period j.1 * j.2, fun j => if j.2 = 0 then T.exec j.1 else 0⟩
  sched t := (T.at_ t).map ⟨fun i => (i, 0), fun _ _ h => congrArg Prod.fst h⟩
  issued s := ∃ c ∈ T.secs, c.sec = s
  enter s := (T.entry s).elim 0 Sec.enter
  acquire s := (T.entry s).elim 0 Sec.acquire
  leave s := (T.entry s).elim 0 Sec.leave

/-- Service of the first job of a task. -/
def svc (i : Fin n) (t : ℕ) : ℕ := ((range t).filter (fun s => i ∈ T.at_ s)).card

/-- The first job of task `i` is ready. -/
def Rdy (i : Fin n) (t : ℕ) : Prop := T.off i ≤ t ∧ T.svc i t < T.exec i

instance (i : Fin n) (t : ℕ) : Decidable (T.Rdy i t) := inferInstanceAs (Decidable (_ ∧ _))

/-- The resource of a section. -/
def _root_.Verif.Spec.Sec.res (S : LockSystem n) (c : Sec n) : Option ℕ :=
  ((S.reqs c.task)[c.idx]?).map (·.res)

def _root_.Verif.Spec.Sec.Wt (c : Sec n) (t : ℕ) : Prop := c.enter ≤ t ∧ t < c.acquire

def _root_.Verif.Spec.Sec.Ow (c : Sec n) (t : ℕ) : Prop := c.acquire ≤ t ∧ t < c.leave

instance (c : Sec n) (t : ℕ) : Decidable (c.Wt t) := inferInstanceAs (Decidable (_ ∧ _))
instance (c : Sec n) (t : ℕ) : Decidable (c.Ow t) := inferInstanceAs (Decidable (_ ∧ _))

/-- What has to be checked for any protocol. -/
def ReqOk (m : ℕ) (S : LockSystem n) : Prop :=
  (∀ i, T.exec i ≤ S.cost i ∧ T.exec i ≤ T.svc i T.slots.length) ∧
  (∀ t ∈ range T.slots.length, (T.at_ t).card ≤ m ∧ ∀ i ∈ T.at_ t, T.Rdy i t) ∧
  (∀ c ∈ T.secs, ((S.reqs c.task)[c.idx]?).any (fun q => decide (c.inst < q.num ∧
    ((Ico c.acquire c.leave).filter (fun t => c.task ∈ T.at_ t)).card ≤ q.len))) ∧
  (∀ c ∈ T.secs, c.enter ≤ c.acquire ∧ c.acquire ≤ c.leave ∧
    ∀ t ∈ Ico c.enter c.leave, T.Rdy c.task t ∧ (t < c.acquire → c.task ∉ T.at_ t)) ∧
  (∀ c ∈ T.secs, ∀ c' ∈ T.secs, c.task = c'.task → c ≠ c' →
    c.sec ≠ c'.sec ∧ (c.leave ≤ c'.enter ∨ c'.leave ≤ c.enter))

instance (m : ℕ) (S : LockSystem n) : Decidable (T.ReqOk m S) := by
  unfold ReqOk
  infer_instance

/-- What has to be checked for any protocol in which jobs wait only for resources in use. -/
def Ok (m : ℕ) (S : LockSystem n) : Prop :=
  T.ReqOk m S ∧
  (∀ c ∈ T.secs, ∀ c' ∈ T.secs, c.res S = c'.res S → c ≠ c' → c.leave ≤ c'.acquire ∨ c'.leave ≤ c.acquire ∨
    c.leave ≤ c.acquire ∨ c'.leave ≤ c'.acquire) ∧
  (∀ c ∈ T.secs, ∀ t ∈ Ico c.enter c.acquire, ∃ c' ∈ T.secs, c'.Ow t ∧ c'.res S = c.res S)

instance (m : ℕ) (S : LockSystem n) : Decidable (T.Ok m S) := by
  unfold Ok
  infer_instance

variable {T} {m : ℕ} {S : LockSystem n}

theorem mem_run {j : Job n} {t : ℕ} : j ∈ (T.run S).sched t ↔ j.2 = 0 ∧ j.1 ∈ T.at_ t := by
  obtain ⟨i, q⟩ := j
  show (i, q) ∈ (T.at_ t).map _ ↔ _
  rw [mem_map]
  constructor
  · rintro ⟨a, ha, he⟩
    have he' : (a, 0) = (i, q) := he
    rw [Prod.mk.injEq] at he'
    exact ⟨he'.2.symm, he'.1 ▸ ha⟩
  · rintro ⟨h0, h⟩
    simp only at h0 h
    subst h0
    exact ⟨i, h, rfl⟩

theorem card_run (t : ℕ) : ((T.run S).sched t).card = (T.at_ t).card := card_map _

theorem service_run (i : Fin n) (t : ℕ) : service (T.run S).sched (i, 0) t = T.svc i t := by
  unfold service svc
  congr 1
  apply filter_congr
  intro s _
  rw [mem_run]
  simp

theorem ready_run {j : Job n} {t : ℕ} : Ready (T.run S).work (T.run S).sched j t ↔ j.2 = 0 ∧ T.Rdy j.1 t := by
  obtain ⟨i, q⟩ := j
  unfold Ready Pending Completed Rdy
  by_cases hq : q = 0
  · subst hq
    rw [service_run]
    simp [run]
  · simp [run, hq]

theorem at_empty {t : ℕ} (h : T.slots.length ≤ t) : T.at_ t = ∅ := by
  unfold at_
  rw [List.getD_eq_getElem?_getD, List.getElem?_eq_none h]
  rfl

theorem ReqOk.rdy_lt (h : T.ReqOk m S) {i : Fin n} {t : ℕ} (hr : T.Rdy i t) : t < T.slots.length := by
  by_contra hc
  have h1 := (h.1 i).2
  have h2 : T.svc i T.slots.length ≤ T.svc i t := card_le_card (by
    intro s hs
    rw [mem_filter, mem_range] at hs ⊢
    exact ⟨by omega, hs.2⟩)
  have := hr.2
  omega

theorem ReqOk.entry_eq (h : T.ReqOk m S) {c : Sec n} (hc : c ∈ T.secs) : T.entry c.sec = some c := by
  unfold entry
  cases hf : T.secs.find? (fun c' => c'.sec = c.sec) with
  | none =>
    rw [List.find?_eq_none] at hf
    exact absurd (hf c hc) (by simp)
  | some c' =>
    have h1 := List.find?_some hf
    have h2 := List.mem_of_find?_eq_some hf
    simp only [decide_eq_true_eq] at h1
    by_cases hne : c' = c
    · rw [hne]
    · have ht : c'.task = c.task := by
        have := congrArg (fun s => s.job.1) h1
        exact this
      exact absurd h1 (h.2.2.2.2 c' h2 c hc ht hne).1

theorem ReqOk.enter_eq (h : T.ReqOk m S) {c : Sec n} (hc : c ∈ T.secs) : (T.run S).enter c.sec = c.enter := by
  show (T.entry c.sec).elim 0 Sec.enter = _
  rw [h.entry_eq hc]; rfl

theorem ReqOk.acquire_eq (h : T.ReqOk m S) {c : Sec n} (hc : c ∈ T.secs) : (T.run S).acquire c.sec = c.acquire := by
  show (T.entry c.sec).elim 0 Sec.acquire = _
  rw [h.entry_eq hc]; rfl

theorem ReqOk.leave_eq (h : T.ReqOk m S) {c : Sec n} (hc : c ∈ T.secs) : (T.run S).leave c.sec = c.leave := by
  show (T.entry c.sec).elim 0 Sec.leave = _
  rw [h.entry_eq hc]; rfl

theorem ReqOk.waits_iff (h : T.ReqOk m S) {c : Sec n} (hc : c ∈ T.secs) {t : ℕ} :
    (T.run S).Waits c.sec t ↔ c.Wt t := by
  unfold LockRun.Waits Sec.Wt
  rw [h.enter_eq hc, h.acquire_eq hc]
  exact ⟨fun h => h.2, fun h => ⟨⟨c, hc, rfl⟩, h⟩⟩

theorem ReqOk.owns_iff (h : T.ReqOk m S) {c : Sec n} (hc : c ∈ T.secs) {t : ℕ} :
    (T.run S).Owns c.sec t ↔ c.Ow t := by
  unfold LockRun.Owns Sec.Ow
  rw [h.leave_eq hc, h.acquire_eq hc]
  exact ⟨fun h => h.2, fun h => ⟨⟨c, hc, rfl⟩, h⟩⟩

theorem Ok.rdy_lt (h : T.Ok m S) {i : Fin n} {t : ℕ} (hr : T.Rdy i t) : t < T.slots.length := h.1.rdy_lt hr

theorem Ok.enter_eq (h : T.Ok m S) {c : Sec n} (hc : c ∈ T.secs) : (T.run S).enter c.sec = c.enter :=
  h.1.enter_eq hc

theorem Ok.acquire_eq (h : T.Ok m S) {c : Sec n} (hc : c ∈ T.secs) : (T.run S).acquire c.sec = c.acquire :=
  h.1.acquire_eq hc

theorem Ok.leave_eq (h : T.Ok m S) {c : Sec n} (hc : c ∈ T.secs) : (T.run S).leave c.sec = c.leave :=
  h.1.leave_eq hc

theorem Ok.waits_iff (h : T.Ok m S) {c : Sec n} (hc : c ∈ T.secs) {t : ℕ} :
    (T.run S).Waits c.sec t ↔ c.Wt t := h.1.waits_iff hc

theorem Ok.owns_iff (h : T.Ok m S) {c : Sec n} (hc : c ∈ T.secs) {t : ℕ} :
    (T.run S).Owns c.sec t ↔ c.Ow t := h.1.owns_iff hc

theorem for_iff {c : Sec n} {r : ℕ} : S.For c.sec r ↔ c.res S = some r := by
  unfold LockSystem.For Sec.res Sec.sec
  rw [Option.map_eq_some_iff]

theorem ReqOk.requestRun (h : T.ReqOk m S) : RequestRun m S (T.run S) := by
  obtain ⟨h1, h2, h3, h4, h5⟩ := id h
  constructor
  · constructor
    · intro i k
      show T.off i + S.period i * k + S.period i ≤ T.off i + S.period i * (k + 1)
      rw [Nat.mul_add]; omega
    · intro i k
      show (if k = 0 then T.exec i else 0) ≤ _
      split_ifs
      · exact (h1 i).1
      · exact Nat.zero_le _
  · constructor
    · intro t
      rw [card_run]
      by_cases ht : t < T.slots.length
      · exact (h2 t (mem_range.2 ht)).1
      · rw [at_empty (not_lt.1 ht)]; simp
    · intro t j hj
      rw [mem_run] at hj
      rw [ready_run]
      have ht : t < T.slots.length := by
        by_contra hc
        rw [at_empty (not_lt.1 hc)] at hj
        simp at hj
      exact ⟨hj.1, (h2 t (mem_range.2 ht)).2 j.1 hj.2⟩
  · rintro s ⟨c, hc, rfl⟩
    have := h3 c hc
    rw [Option.any_eq_true] at this
    obtain ⟨q, hq, hd⟩ := this
    exact ⟨q, hq, (of_decide_eq_true hd).1⟩
  · rintro s ⟨c, hc, rfl⟩
    rw [h.enter_eq hc, h.acquire_eq hc, h.leave_eq hc]
    exact ⟨(h4 c hc).1, (h4 c hc).2.1⟩
  · rintro s t ⟨c, hc, rfl⟩ he hl
    rw [h.enter_eq hc] at he
    rw [h.leave_eq hc] at hl
    rw [ready_run]
    exact ⟨rfl, ((h4 c hc).2.2 t (mem_Ico.2 ⟨he, hl⟩)).1⟩
  · rintro s q ⟨c, hc, rfl⟩ hq
    have := h3 c hc
    rw [Option.any_eq_true] at this
    obtain ⟨q', hq', hd⟩ := this
    have e : q' = q := Option.some.inj (hq'.symm.trans hq)
    subst e
    rw [h.acquire_eq hc, h.leave_eq hc]
    refine le_trans (le_of_eq ?_) (of_decide_eq_true hd).2
    congr 1
    apply filter_congr
    intro t _
    rw [mem_run]
    exact ⟨fun h => h.2, fun h => ⟨rfl, h⟩⟩
  · rintro s s' ⟨c, hc, rfl⟩ ⟨c', hc', rfl⟩ hj hne
    rw [h.enter_eq hc, h.enter_eq hc', h.leave_eq hc, h.leave_eq hc']
    exact (h5 c hc c' hc' (congrArg Prod.fst hj) (fun e => hne (e ▸ rfl))).2
  · rintro s t hw
    obtain ⟨c, hc, rfl⟩ := hw.1
    have hw' := (h.waits_iff hc).1 hw
    rw [mem_run]
    rintro ⟨-, hm⟩
    have h8 := h4 c hc
    exact (h8.2.2 t (mem_Ico.2 ⟨hw'.1, by have := hw'.2; omega⟩)).2 hw'.2 hm

theorem Ok.suspendRun (h : T.Ok m S) : SuspendRun m S (T.run S) := by
  obtain ⟨h0, h6, h7⟩ := id h
  refine ⟨h0.requestRun, ?_, ?_⟩
  · rintro s s' r t ho ho' hf hf'
    obtain ⟨c, hc, rfl⟩ := ho.1
    obtain ⟨c', hc', rfl⟩ := ho'.1
    rw [h.owns_iff hc] at ho
    rw [h.owns_iff hc'] at ho'
    by_contra hne
    have := h6 c hc c' hc' ((for_iff.1 hf).trans (for_iff.1 hf').symm) (fun e => hne (e ▸ rfl))
    unfold Sec.Ow at ho ho'
    omega
  · rintro s r t hw hf
    obtain ⟨c, hc, rfl⟩ := hw.1
    rw [h.waits_iff hc] at hw
    obtain ⟨c', hc', ho, he⟩ := h7 c hc t (mem_Ico.2 hw)
    exact ⟨c'.sec, (h.owns_iff hc').2 ho, for_iff.2 (he.trans (for_iff.1 hf))⟩

/-! ### The priority inheritance protocol -/

/-- The priorities of a job. -/
def Acts (T : Table n) (S : LockSystem n) (i a : Fin n) (t : ℕ) : Prop :=
  i = a ∨ ∃ c ∈ T.secs, ∃ c' ∈ T.secs, c.Wt t ∧ c'.Ow t ∧ c.res S = c'.res S ∧ c.task = a ∧ c'.task = i

instance (T : Table n) (S : LockSystem n) (i a : Fin n) (t : ℕ) : Decidable (T.Acts S i a t) :=
  inferInstanceAs (Decidable (_ ∨ _))

theorem Ok.acts_iff (h : T.Ok m S) {i a : Fin n} {t : ℕ} :
    (T.run S).ActsFor S (i, 0) a t ↔ T.Acts S i a t := by
  unfold LockRun.ActsFor Acts
  apply or_congr Iff.rfl
  constructor
  · rintro ⟨s, s', r, hw, ho, hf, hf', ha, hj⟩
    obtain ⟨c, hc, rfl⟩ := hw.1
    obtain ⟨c', hc', rfl⟩ := ho.1
    exact ⟨c, hc, c', hc', (h.waits_iff hc).1 hw, (h.owns_iff hc').1 ho,
      (for_iff.1 hf).trans (for_iff.1 hf').symm, ha, congrArg Prod.fst hj⟩
  · rintro ⟨c, hc, c', hc', hw, ho, he, rfl, rfl⟩
    have h3 := h.1.2.2.1 c hc
    rw [Option.any_eq_true] at h3
    obtain ⟨q, hq, -⟩ := h3
    have hr : c.res S = some q.res := by
      unfold Sec.res; rw [hq]; rfl
    exact ⟨c.sec, c'.sec, q.res, (h.waits_iff hc).2 hw, (h.owns_iff hc').2 ho, for_iff.2 hr,
      for_iff.2 (he ▸ hr), rfl, rfl⟩

/-- What has to be checked for the PIP. -/
def PipOk (T : Table n) (m : ℕ) (S : LockSystem n) : Prop :=
  (∀ c ∈ T.secs, ∀ c' ∈ T.secs, c.res S = c'.res S → c.enter < c'.acquire → c'.acquire < c.acquire →
    c'.task ≤ c.task) ∧
  ∀ t ∈ range T.slots.length, ∀ i, T.Rdy i t → i ∉ T.at_ t → (∀ c ∈ T.secs, c.Wt t → c.task ≠ i) →
    (T.at_ t).card = m ∧ ∀ i' ∈ T.at_ t, ∃ a, T.Acts S i' a t ∧ ∀ b, T.Acts S i b t → a ≤ b

instance (T : Table n) (m : ℕ) (S : LockSystem n) : Decidable (T.PipOk m S) := by
  unfold PipOk
  infer_instance

theorem Ok.pip (h : T.Ok m S) (hp : T.PipOk m S) : Pip m S (T.run S) where
  toSuspendRun := h.suspendRun
  queue := by
    rintro s s' r ⟨c, hc, rfl⟩ ⟨c', hc', rfl⟩ hf hf' h1 h2
    rw [h.enter_eq hc, h.acquire_eq hc'] at h1
    rw [h.acquire_eq hc', h.acquire_eq hc] at h2
    exact hp.1 c hc c' hc' ((for_iff.1 hf).trans (for_iff.1 hf').symm) h1 h2
  dispatch := by
    rintro t ⟨i, q⟩ hr hn hw
    rw [ready_run] at hr
    obtain ⟨h0, hr⟩ := hr
    simp only at h0 hr
    subst h0
    rw [mem_run] at hn
    have := hp.2 t (mem_range.2 (h.rdy_lt hr)) i hr (fun hm => hn ⟨rfl, hm⟩)
      (fun c hc hwt he => hw c.sec ((h.waits_iff hc).2 hwt) (by unfold Sec.sec; rw [he]))
    refine ⟨by rw [card_run]; exact this.1, ?_⟩
    rintro ⟨i', q'⟩ hj
    rw [mem_run] at hj
    obtain ⟨h0', hj⟩ := hj
    simp only at h0' hj
    subst h0'
    obtain ⟨a, ha, hb⟩ := this.2 i' hj
    exact ⟨a, h.acts_iff.2 ha, fun b hb' => hb b (h.acts_iff.1 hb')⟩

theorem Ok.ppcp (h : T.Ok m S) (hp : T.PipOk m S)
    (ho : ∀ t ∈ range T.slots.length, (T.secs.filter (fun c => decide (c.Ow t))).length ≤ m) :
    UnlimitedPpcp m S (T.run S) where
  toPip := h.pip hp
  owners := by
    classical
    intro t F hF
    by_cases hF0 : F = ∅
    · rw [hF0]; exact Nat.zero_le _
    have hsub : F ⊆ ((T.secs.filter (fun c => decide (c.Ow t))).map Sec.sec).toFinset := by
      intro s hs
      obtain ⟨c, hc, rfl⟩ := (hF s hs).1
      rw [List.mem_toFinset, List.mem_map]
      exact ⟨c, List.mem_filter.2 ⟨hc, by simpa using (h.owns_iff hc).1 (hF _ hs)⟩, rfl⟩
    have ht : t < T.slots.length := by
      obtain ⟨s, hs⟩ := nonempty_iff_ne_empty.2 hF0
      have hs' := hF s hs
      obtain ⟨c, hc, rfl⟩ := hs'.1
      have hr := h.suspendRun.active _ t hs'.1 ((h.suspendRun.order _ hs'.1).1.trans hs'.2.1) hs'.2.2
      exact h.rdy_lt (ready_run.1 hr).2
    refine (card_le_card hsub).trans ((List.toFinset_card_le _).trans ?_)
    rw [List.length_map]
    exact ho t (mem_range.2 ht)

end Table
end Verif.Spec
