import Verif.Lemmas.LockTableMpcp
import Verif.Spec.Dpcp

/-! Finite runs of the DPCP, given by a table. -/

namespace Verif.Spec

/-- The processor of a section. -/
def Sec.cpu {n : ℕ} (S : LockSystem n) (loc : ℕ → ℕ) (c : Sec n) : Option ℕ := (c.res S).map loc

/-- Task `x` uses the resource of a section. -/
def Sec.UsedBy {n : ℕ} (S : LockSystem n) (c : Sec n) (x : Fin n) : Prop := ∃ q ∈ S.reqs x, c.res S = some q.res

instance {n : ℕ} (S : LockSystem n) (c : Sec n) (x : Fin n) : Decidable (c.UsedBy S x) := by
  unfold Sec.UsedBy
  infer_instance

namespace Table
open Finset

variable {n : ℕ} {T : Table n} {m : ℕ} {S : LockSystem n} {loc : ℕ → ℕ}

/-- Task `i` does not own a resource. -/
def Free (T : Table n) (i : Fin n) (t : ℕ) : Prop := ∀ c ∈ T.secs, c.task = i → ¬ c.Ow t

instance (T : Table n) (i : Fin n) (t : ℕ) : Decidable (T.Free i t) := by
  unfold Free
  infer_instance

/-- Where a task executes. -/
def OnCpu (T : Table n) (S : LockSystem n) (loc : ℕ → ℕ) (i : Fin n) (t p : ℕ) : Prop :=
  (∃ c ∈ T.secs, c.task = i ∧ c.Ow t ∧ c.cpu S loc = some p) ∨ (T.Free i t ∧ S.proc i = p)

instance (T : Table n) (S : LockSystem n) (loc : ℕ → ℕ) (i : Fin n) (t p : ℕ) : Decidable (T.OnCpu S loc i t p) := by
  unfold OnCpu
  infer_instance

/-- One job on each processor. -/
def OneOk (T : Table n) (S : LockSystem n) (loc : ℕ → ℕ) : Prop :=
  ∀ t ∈ range T.slots.length, ∀ i ∈ T.at_ t, ∀ i' ∈ T.at_ t, i ≠ i' →
    (∀ c ∈ T.secs, c.task = i ∧ c.Ow t → ∀ c' ∈ T.secs, c'.task = i' ∧ c'.Ow t → c.cpu S loc ≠ c'.cpu S loc) ∧
    (∀ c ∈ T.secs, c.task = i ∧ c.Ow t ∧ T.Free i' t → c.cpu S loc ≠ some (S.proc i')) ∧
    (T.Free i t ∧ T.Free i' t → S.proc i ≠ S.proc i')

instance (T : Table n) (S : LockSystem n) (loc : ℕ → ℕ) : Decidable (T.OneOk S loc) := by
  unfold OneOk
  infer_instance

/-- Requests are granted to executing agents, and respect ceilings. -/
def GrantOk (T : Table n) (S : LockSystem n) (prio : Fin n → ℕ) (loc : ℕ → ℕ) : Prop :=
  ∀ c ∈ T.secs, c.acquire < c.leave → c.task ∈ T.at_ c.acquire ∧
    ∀ c' ∈ T.secs, c'.task ≠ c.task ∧ c'.Ow c.acquire ∧ c'.cpu S loc = c.cpu S loc →
      ∀ x, c'.UsedBy S x → prio c.task < prio x

instance (T : Table n) (S : LockSystem n) (prio : Fin n → ℕ) (loc : ℕ → ℕ) : Decidable (T.GrantOk S prio loc) := by
  unfold GrantOk
  infer_instance

/-- Requests are served. -/
def AgentOk (T : Table n) (S : LockSystem n) (prio : Fin n → ℕ) (loc : ℕ → ℕ) : Prop :=
  ∀ c ∈ T.secs, ∀ t ∈ Ico c.enter c.leave, c.task ∉ T.at_ t →
    ∃ c' ∈ T.secs, c'.task ∈ T.at_ t ∧ c'.Ow t ∧ c'.cpu S loc = c.cpu S loc ∧
      (prio c'.task ≤ prio c.task ∨ c'.acquire < t ∧ ∃ x, c'.UsedBy S x ∧ prio x ≤ prio c.task)

instance (T : Table n) (S : LockSystem n) (prio : Fin n → ℕ) (loc : ℕ → ℕ) : Decidable (T.AgentOk S prio loc) := by
  unfold AgentOk
  infer_instance

/-- Jobs are served. -/
def JobOk (T : Table n) (S : LockSystem n) (prio : Fin n → ℕ) (loc : ℕ → ℕ) : Prop :=
  ∀ t ∈ range T.slots.length, ∀ i, (T.Rdy i t ∧ i ∉ T.at_ t ∧
      ∀ c ∈ T.secs, c.task = i → c.enter ≤ t → c.leave ≤ t) →
    ∃ i' ∈ T.at_ t, T.OnCpu S loc i' t (S.proc i) ∧ (¬ T.Free i' t ∨ prio i' ≤ prio i)

instance (T : Table n) (S : LockSystem n) (prio : Fin n → ℕ) (loc : ℕ → ℕ) : Decidable (T.JobOk S prio loc) := by
  unfold JobOk
  infer_instance

theorem cpu_iff {c : Sec n} {r : ℕ} (h : S.For c.sec r) : c.cpu S loc = some (loc r) := by
  unfold Sec.cpu
  rw [for_iff.1 h]
  rfl

theorem ReqOk.exists_for (h : T.ReqOk m S) {c : Sec n} (hc : c ∈ T.secs) : ∃ r, S.For c.sec r := by
  have h3 := h.2.2.1 c hc
  rw [Option.any_eq_true] at h3
  obtain ⟨q, hq, -⟩ := h3
  exact ⟨q.res, q, hq, rfl⟩

theorem usedBy_iff {c : Sec n} {r : ℕ} (h : S.For c.sec r) {x : Fin n} : c.UsedBy S x ↔ S.Uses x r := by
  unfold Sec.UsedBy LockSystem.Uses
  rw [for_iff.1 h]
  constructor
  · rintro ⟨q, hq, he⟩
    exact ⟨q, hq, (Option.some.inj he).symm⟩
  · rintro ⟨q, hq, he⟩
    exact ⟨q, hq, by rw [he]⟩

theorem ReqOk.free_iff (h : T.ReqOk m S) {i : Fin n} {t : ℕ} :
    T.Free i t ↔ ∀ s, s.job = (i, 0) → ¬ (T.run S).Owns s t := by
  unfold Free
  constructor
  · intro hf s hs ho
    obtain ⟨c, hc, rfl⟩ := ho.1
    exact hf c hc (congrArg Prod.fst hs) ((h.owns_iff hc).1 ho)
  · intro hf c hc hi ho
    exact hf c.sec (by unfold Sec.sec; rw [hi]) ((h.owns_iff hc).2 ho)

theorem ReqOk.on_iff (h : T.ReqOk m S) {i : Fin n} {t p : ℕ} :
    (T.run S).On S loc (i, 0) t p ↔ T.OnCpu S loc i t p := by
  unfold LockRun.On OnCpu
  rw [h.free_iff]
  apply or_congr _ Iff.rfl
  constructor
  · rintro ⟨s, r, hs, ho, hf, hl⟩
    obtain ⟨c, hc, rfl⟩ := ho.1
    exact ⟨c, hc, congrArg Prod.fst hs, (h.owns_iff hc).1 ho, by rw [cpu_iff hf, hl]⟩
  · rintro ⟨c, hc, hi, ho, hl⟩
    obtain ⟨r, hr⟩ := h.exists_for hc
    rw [cpu_iff hr] at hl
    exact ⟨c.sec, r, by unfold Sec.sec; rw [hi], (h.owns_iff hc).2 ho, hr, Option.some.inj hl⟩

theorem ReqOk.dpcp (h : T.ReqOk n S) {prio : Fin n → ℕ} (h1 : T.OneOk S loc) (h2 : T.GrantOk S prio loc)
    (h3 : T.AgentOk S prio loc) (h4 : T.JobOk S prio loc) : Dpcp S prio loc (T.run S) where
  toRequestRun := h.requestRun
  one := by
    rintro t p ⟨i, q⟩ hi ⟨i', q'⟩ hi' ho ho'
    rw [mem_run] at hi hi'
    obtain ⟨e1, hi⟩ := hi
    obtain ⟨e2, hi'⟩ := hi'
    simp only at e1 e2 hi hi'
    subst e1 e2
    rw [h.on_iff] at ho ho'
    by_contra hne
    have hne' : i ≠ i' := fun he => hne (by rw [he])
    have ht : t < T.slots.length := by
      by_contra hc
      rw [at_empty (not_lt.1 hc)] at hi
      simp at hi
    have k1 := h1 t (mem_range.2 ht) i hi i' hi' hne'
    have k2 := h1 t (mem_range.2 ht) i' hi' i hi (Ne.symm hne')
    rcases ho with ⟨c, hc, a1, a2, a3⟩ | ⟨a1, a2⟩ <;> rcases ho' with ⟨c', hc', b1, b2, b3⟩ | ⟨b1, b2⟩
    · exact k1.1 c hc ⟨a1, a2⟩ c' hc' ⟨b1, b2⟩ (a3.trans b3.symm)
    · exact k1.2.1 c hc ⟨a1, a2, b1⟩ (by rw [a3, b2])
    · exact k2.2.1 c' hc' ⟨b1, b2, a1⟩ (by rw [b3, a2])
    · exact k1.2.2 ⟨a1, b1⟩ (a2.trans b2.symm)
  granted := by
    rintro s ⟨c, hc, rfl⟩ hl
    rw [h.acquire_eq hc, h.leave_eq hc] at hl
    rw [h.acquire_eq hc, mem_run]
    exact ⟨rfl, (h2 c hc hl).1⟩
  ceiling := by
    rintro s s' r r' ⟨c, hc, rfl⟩ hl hne ho hf hf' hloc x hx
    obtain ⟨c', hc', rfl⟩ := ho.1
    rw [h.acquire_eq hc, h.leave_eq hc] at hl
    rw [h.acquire_eq hc, h.owns_iff hc'] at ho
    exact (h2 c hc hl).2 c' hc' ⟨fun he => hne (by unfold Sec.sec; rw [he]), ho, by rw [cpu_iff hf, cpu_iff hf', hloc]⟩
      x ((usedBy_iff hf').2 hx)
  agents := by
    rintro s r t ⟨c, hc, rfl⟩ h5 h6 h7 hf
    rw [h.enter_eq hc] at h5
    rw [h.leave_eq hc] at h6
    rw [mem_run] at h7
    obtain ⟨c', hc', a1, a2, a3, a4⟩ := h3 c hc t (mem_Ico.2 ⟨h5, h6⟩) (fun hm => h7 ⟨rfl, hm⟩)
    obtain ⟨r', hr'⟩ := h.exists_for hc'
    rw [cpu_iff hf, cpu_iff hr'] at a3
    refine ⟨c'.sec, r', mem_run.2 ⟨rfl, a1⟩, (h.owns_iff hc').2 a2, hr', Option.some.inj a3, ?_⟩
    rcases a4 with a4 | ⟨a4, x, a5, a6⟩
    · exact Or.inl a4
    · refine Or.inr ⟨?_, x, (usedBy_iff hr').1 a5, a6⟩
      rw [h.acquire_eq hc']
      exact a4
  jobs := by
    rintro t ⟨i, q⟩ hr hn hs
    rw [ready_run] at hr
    obtain ⟨h0, hr⟩ := hr
    simp only at h0 hr
    subst h0
    rw [mem_run] at hn
    obtain ⟨i', hi', hon, hcase⟩ := h4 t (mem_range.2 (h.rdy_lt hr)) i ⟨hr, fun hm => hn ⟨rfl, hm⟩, by
      intro c hc hi he
      have := hs c.sec (by unfold Sec.sec; rw [hi]) ⟨c, hc, rfl⟩ (by rw [h.enter_eq hc]; exact he)
      rw [h.leave_eq hc] at this
      exact this⟩
    refine ⟨(i', 0), mem_run.2 ⟨rfl, hi'⟩, h.on_iff.2 hon, ?_⟩
    rcases hcase with hcase | hcase
    · left
      rw [h.free_iff] at hcase
      push Not at hcase
      exact hcase
    · exact Or.inr hcase

end Table
end Verif.Spec
