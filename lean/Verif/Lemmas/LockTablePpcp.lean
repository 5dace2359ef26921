/-
Finite runs of the P-PCP, given by a table.
-/
import Verif.Spec.Ppcp
import Verif.Spec.GlobalLocks
import Verif.Lemmas.LockTable

namespace Verif.Spec
open Finset

namespace Table
variable {n : ℕ} {T : Table n} {m : ℕ} {S : LockSystem n}

/-- A section that limits the requests of task `i`. -/
def Lim (S : LockSystem n) (i : Fin n) (c : Sec n) (t : ℕ) : Prop :=
  c.Ow t ∧ i < c.task ∧ ∃ h : Fin n, h < i ∧ ∃ q ∈ S.reqs h, some q.res = c.res S

instance (S : LockSystem n) (i : Fin n) (c : Sec n) (t : ℕ) : Decidable (Lim S i c t) :=
  inferInstanceAs (Decidable (_ ∧ _ ∧ _))

theorem ReqOk.limits_iff (h : T.ReqOk m S) {c : Sec n} (hc : c ∈ T.secs) {i : Fin n} {t : ℕ} :
    (T.run S).Limits S i c.sec t ↔ Lim S i c t := by
  unfold LockRun.Limits Lim
  rw [h.owns_iff hc]
  refine and_congr Iff.rfl (and_congr Iff.rfl ?_)
  constructor
  · rintro ⟨r, hf, k, hk, q, hq, rfl⟩
    exact ⟨k, hk, q, hq, (for_iff.1 hf).symm⟩
  · rintro ⟨k, hk, q, hq, he⟩
    exact ⟨q.res, for_iff.2 he.symm, k, hk, q, hq, rfl⟩

theorem ReqOk.sec_inj (h : T.ReqOk m S) {c c' : Sec n} (hc : c ∈ T.secs) (hc' : c' ∈ T.secs) (he : c.sec = c'.sec) :
    c = c' := by
  by_contra hne
  exact (h.2.2.2.2 c hc c' hc' (congrArg (fun s => s.job.1) he) hne).1 he

/-- A section whose job waits for a free resource. -/
def Wh (T : Table n) (S : LockSystem n) (c : Sec n) (t : ℕ) : Prop :=
  c.Wt t ∧ ¬ ∃ c' ∈ T.secs, c'.Ow t ∧ c'.res S = c.res S

instance (T : Table n) (S : LockSystem n) (c : Sec n) (t : ℕ) : Decidable (T.Wh S c t) :=
  inferInstanceAs (Decidable (_ ∧ _))

theorem ReqOk.res_some (h : T.ReqOk m S) {c : Sec n} (hc : c ∈ T.secs) : ∃ r, c.res S = some r := by
  have h3 := h.2.2.1 c hc
  rw [Option.any_eq_true] at h3
  obtain ⟨q, hq, -⟩ := h3
  exact ⟨q.res, by unfold Sec.res; rw [hq]; rfl⟩

theorem ReqOk.withheld_iff (h : T.ReqOk m S) {c : Sec n} (hc : c ∈ T.secs) {t : ℕ} :
    (T.run S).Withheld S c.sec t ↔ T.Wh S c t := by
  unfold LockRun.Withheld Wh
  rw [h.waits_iff hc]
  refine and_congr Iff.rfl ?_
  obtain ⟨r, hr⟩ := h.res_some hc
  constructor
  · rintro hn ⟨c', hc', ho, he⟩
    exact hn r (for_iff.2 hr) ⟨c'.sec, (h.owns_iff hc').2 ho, for_iff.2 (he.trans hr)⟩
  · rintro hn r' hf ⟨s', ho, hf'⟩
    obtain ⟨c', hc', rfl⟩ := ho.1
    exact hn ⟨c', hc', (h.owns_iff hc').1 ho, (for_iff.1 hf').trans (for_iff.1 hf).symm⟩

/-- The priorities of a job. -/
def ActsP (T : Table n) (S : LockSystem n) (i a : Fin n) (t : ℕ) : Prop :=
  T.Acts S i a t ∨ ∃ c ∈ T.secs, ∃ c' ∈ T.secs, T.Wh S c t ∧ Lim S c.task c' t ∧ c.task = a ∧ c'.task = i

instance (T : Table n) (S : LockSystem n) (i a : Fin n) (t : ℕ) : Decidable (T.ActsP S i a t) :=
  inferInstanceAs (Decidable (_ ∨ _))

theorem ReqOk.acts_iff (h : T.ReqOk m S) {i a : Fin n} {t : ℕ} :
    (T.run S).ActsFor S (i, 0) a t ↔ T.Acts S i a t := by
  unfold LockRun.ActsFor Acts
  apply or_congr Iff.rfl
  constructor
  · rintro ⟨s, s', r, hw, ho, hf, hf', ha, hj⟩
    obtain ⟨c, hc, rfl⟩ := hw.1
    obtain ⟨c', hc', rfl⟩ := ho.1
    exact ⟨c, hc, c', hc', (h.waits_iff hc).1 hw, (h.owns_iff hc').1 ho,
      (for_iff.1 hf).trans (for_iff.1 hf').symm, ha, congrArg Prod.fst hj⟩
  · rintro ⟨c, hc, c', hc', hw, ho, he, rfl, rfl⟩
    obtain ⟨r, hr⟩ := h.res_some hc
    exact ⟨c.sec, c'.sec, r, (h.waits_iff hc).2 hw, (h.owns_iff hc').2 ho, for_iff.2 hr,
      for_iff.2 (he ▸ hr), rfl, rfl⟩

theorem ReqOk.actsP_iff (h : T.ReqOk m S) {i a : Fin n} {t : ℕ} :
    (T.run S).ActsUnderCeiling S (i, 0) a t ↔ T.ActsP S i a t := by
  unfold LockRun.ActsUnderCeiling ActsP
  apply or_congr h.acts_iff
  constructor
  · rintro ⟨s, s', hw, hl, ha, hj⟩
    obtain ⟨c, hc, rfl⟩ := hw.1.1
    obtain ⟨c', hc', rfl⟩ := hl.1.1
    exact ⟨c, hc, c', hc', (h.withheld_iff hc).1 hw, (h.limits_iff hc').1 hl, ha, congrArg Prod.fst hj⟩
  · rintro ⟨c, hc, c', hc', hw, hl, rfl, rfl⟩
    exact ⟨c.sec, c'.sec, (h.withheld_iff hc).2 hw, (h.limits_iff hc').2 hl, rfl, rfl⟩

/-- What has to be checked for the order of the executing jobs. -/
def PpcpRun (T : Table n) (m : ℕ) (S : LockSystem n) : Prop :=
  ∀ t ∈ range T.slots.length, ∀ i, T.Rdy i t → i ∉ T.at_ t → (∀ c ∈ T.secs, c.Wt t → c.task ≠ i) →
    (T.at_ t).card = m ∧ ∀ i' ∈ T.at_ t, ∃ a, T.ActsP S i' a t ∧ ∀ b, T.ActsP S i b t → a ≤ b

instance (T : Table n) (m : ℕ) (S : LockSystem n) : Decidable (T.PpcpRun m S) := by
  unfold PpcpRun
  infer_instance

/-- What has to be checked for the P-PCP. -/
def PpcpOk (T : Table n) (m α : ℕ) (S : LockSystem n) : Prop :=
  (∀ c ∈ T.secs, ∀ c' ∈ T.secs, c.res S = c'.res S → c ≠ c' → c.leave ≤ c'.acquire ∨ c'.leave ≤ c.acquire ∨
    c.leave ≤ c.acquire ∨ c'.leave ≤ c'.acquire) ∧
  (∀ c ∈ T.secs, ∀ t ∈ Ico c.enter c.acquire, (∃ c' ∈ T.secs, c'.Ow t ∧ c'.res S = c.res S) ∨
    α ≤ ((T.secs.filter (fun c' => decide (Lim S c.task c' t))).toFinset).card) ∧
  (∀ c ∈ T.secs, ((T.secs.filter (fun c' => decide (c'.acquire < c.acquire ∧ Lim S c.task c' c.acquire))).toFinset).card
    < α) ∧
  (∀ c ∈ T.secs, ∀ c' ∈ T.secs, c.res S = c'.res S → c.enter < c'.acquire → c'.acquire < c.acquire →
    c'.task ≤ c.task) ∧ T.PpcpRun m S

instance (T : Table n) (m α : ℕ) (S : LockSystem n) : Decidable (T.PpcpOk m α S) := by
  unfold PpcpOk
  infer_instance

theorem ReqOk.ppcp {α : ℕ} (h : T.ReqOk m S) (hp : T.PpcpOk m α S) : Ppcp m α S (T.run S) where
  toRequestRun := h.requestRun
  exclusive := by
    rintro s s' r t ho ho' hf hf'
    obtain ⟨c, hc, rfl⟩ := ho.1
    obtain ⟨c', hc', rfl⟩ := ho'.1
    rw [h.owns_iff hc] at ho
    rw [h.owns_iff hc'] at ho'
    by_contra hne
    have := hp.1 c hc c' hc' ((for_iff.1 hf).trans (for_iff.1 hf').symm) (fun e => hne (e ▸ rfl))
    unfold Sec.Ow at ho ho'
    omega
  waiting := by
    classical
    rintro s r t hw hf
    obtain ⟨c, hc, rfl⟩ := hw.1
    rw [h.waits_iff hc] at hw
    rcases hp.2.1 c hc t (mem_Ico.2 hw) with ⟨c', hc', ho, he⟩ | hle
    · exact .inl ⟨c'.sec, (h.owns_iff hc').2 ho, for_iff.2 (he.trans (for_iff.1 hf))⟩
    · obtain ⟨G, hG, hcard⟩ := exists_subset_card_eq hle
      have hm : ∀ c' ∈ G, c' ∈ T.secs ∧ Lim S c.task c' t := by
        intro c' hc'
        have := hG hc'
        rw [List.mem_toFinset, List.mem_filter] at this
        exact ⟨this.1, of_decide_eq_true this.2⟩
      refine .inr ⟨G.image Sec.sec, ?_, ?_⟩
      · rw [card_image_of_injOn, hcard]
        intro a ha b hb he
        exact h.sec_inj (hm a ha).1 (hm b hb).1 he
      · intro s' hs'
        obtain ⟨c', hc', rfl⟩ := mem_image.1 hs'
        exact (h.limits_iff (hm c' hc').1).2 (hm c' hc').2
  granted := by
    classical
    rintro s ⟨c, hc, rfl⟩ F hF
    rw [h.acquire_eq hc] at hF
    refine lt_of_le_of_lt ?_ (hp.2.2.1 c hc)
    have hsub : F ⊆ ((T.secs.filter (fun c' => decide (c'.acquire < c.acquire ∧ Lim S c.task c' c.acquire))).toFinset).image
        Sec.sec := by
      intro s' hs'
      obtain ⟨h1, h2⟩ := hF s' hs'
      obtain ⟨c', hc', rfl⟩ := h2.1.1
      rw [h.acquire_eq hc'] at h1
      refine mem_image.2 ⟨c', ?_, rfl⟩
      rw [List.mem_toFinset, List.mem_filter]
      exact ⟨hc', decide_eq_true ⟨h1, (h.limits_iff hc').1 h2⟩⟩
    exact (card_le_card hsub).trans card_image_le
  queue := by
    rintro s s' r ⟨c, hc, rfl⟩ ⟨c', hc', rfl⟩ hf hf' h1 h2
    rw [h.enter_eq hc, h.acquire_eq hc'] at h1
    rw [h.acquire_eq hc', h.acquire_eq hc] at h2
    exact hp.2.2.2.1 c hc c' hc' ((for_iff.1 hf).trans (for_iff.1 hf').symm) h1 h2
  dispatch := by
    rintro t ⟨i, q⟩ hr hn hw
    rw [ready_run] at hr
    obtain ⟨h0, hr⟩ := hr
    simp only at h0 hr
    subst h0
    rw [mem_run] at hn
    have := hp.2.2.2.2 t (mem_range.2 (h.rdy_lt hr)) i hr (fun hm => hn ⟨rfl, hm⟩)
      (fun c hc hwt he => hw c.sec ((h.waits_iff hc).2 hwt) (by unfold Sec.sec; rw [he]))
    refine ⟨by rw [card_run]; exact this.1, ?_⟩
    rintro ⟨i', q'⟩ hj
    rw [mem_run] at hj
    obtain ⟨h0', hj⟩ := hj
    simp only at h0' hj
    subst h0'
    obtain ⟨a, ha, hb⟩ := this.2 i' hj
    exact ⟨a, h.actsP_iff.2 ha, fun b hb' => hb b (h.actsP_iff.1 hb')⟩

theorem ReqOk.untilRelease (h : T.ReqOk m S)
    (hp : ∀ c ∈ T.secs, c.acquire < c.leave → c.task ∈ T.at_ (c.leave - 1)) : ExecutesUntilRelease (T.run S) := by
  rintro s ⟨c, hc, rfl⟩ hlt
  rw [h.acquire_eq hc, h.leave_eq hc] at hlt
  rw [h.leave_eq hc, mem_run]
  exact ⟨rfl, hp c hc hlt⟩

end Table
end Verif.Spec
