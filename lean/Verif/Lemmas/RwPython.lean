/-
Lemmas on the models built by `get_cpp_model_rw` and `get_cpp_model`.
-/
import Verif.Lemmas.RwTaskFair

namespace Verif.SR.Rw
open Verif.Spec

theorem mem_rwRequests {q : Requirement} {r : Request} (h : r ∈ q.rwRequests) : r.resId = q.resId ∧
    ((r.isRead = true ∧ r.length = q.readLength) ∨ (r.isRead = false ∧ r.length = q.writeLength)) := by
  unfold Requirement.rwRequests at h
  rcases List.mem_append.mp h with h | h
  · by_cases hw : q.writes > 0
    · rw [if_pos hw, List.mem_singleton] at h; subst h; exact ⟨rfl, Or.inr ⟨rfl, rfl⟩⟩
    · rw [if_neg hw] at h; simp at h
  · by_cases hw : q.reads > 0
    · rw [if_pos hw, List.mem_singleton] at h; subst h; exact ⟨rfl, Or.inl ⟨rfl, rfl⟩⟩
    · rw [if_neg hw] at h; simp at h

theorem sum_rwRequests (q : Requirement) : (q.rwRequests.map (fun r => r.num)).sum = q.writes + q.reads := by
  unfold Requirement.rwRequests
  by_cases h1 : q.writes > 0 <;> by_cases h2 : q.reads > 0 <;> simp [h1, h2] <;> omega

/-- Requirements are identified by their resource. -/
theorem requirement_unique {l : List Requirement} (hn : (l.map (fun q => q.resId)).Nodup) {a b : Requirement}
    (ha : a ∈ l) (hb : b ∈ l) (h : a.resId = b.resId) : a = b :=
  List.inj_on_of_nodup_map hn ha hb h

theorem same_length {ts : List LockTask} (hn : ∀ t ∈ ts, (t.resmodel.map (fun q => q.resId)).Nodup) :
    ∀ t ∈ rwModel ts, ∀ a ∈ t.requests, ∀ b ∈ t.requests, a.resId = b.resId → a.isRead = b.isRead →
      a.length = b.length := by
  intro t ht a ha b hb hab hrd
  obtain ⟨u, hu, rfl⟩ := List.mem_map.mp ht
  obtain ⟨qa, hqa, ha⟩ := List.mem_flatMap.mp ha
  obtain ⟨qb, hqb, hb⟩ := List.mem_flatMap.mp hb
  obtain ⟨a1, a2⟩ := mem_rwRequests ha
  obtain ⟨b1, b2⟩ := mem_rwRequests hb
  have hq : qa = qb := requirement_unique (hn u hu) hqa hqb (by rw [← a1, ← b1, hab])
  subst hq
  rcases a2 with ⟨a2, a3⟩ | ⟨a2, a3⟩ <;> rcases b2 with ⟨b2, b3⟩ | ⟨b2, b3⟩
  · rw [a3, b3]
  · rw [a2, b2] at hrd; exact absurd hrd (by decide)
  · rw [a2, b2] at hrd; exact absurd hrd (by decide)
  · rw [a3, b3]

theorem filter_rw {l : List Requirement} (hn : (l.map (fun q => q.resId)).Nodup) {q : Requirement} (hq : q ∈ l) :
    (l.flatMap Requirement.rwRequests).filter (fun r => decide (r.resId = q.resId)) = q.rwRequests := by
  induction l with
  | nil => simp at hq
  | cons a l ih =>
    rw [List.map_cons, List.nodup_cons] at hn
    have hall : ∀ b : Requirement, b.resId = q.resId →
        b.rwRequests.filter (fun r => decide (r.resId = q.resId)) = b.rwRequests := by
      intro b hb
      rw [List.filter_eq_self]
      intro r hr
      simp [(mem_rwRequests hr).1, hb]
    have hnone : ∀ b : Requirement, b.resId ≠ q.resId →
        b.rwRequests.filter (fun r => decide (r.resId = q.resId)) = [] := by
      intro b hb
      rw [List.filter_eq_nil_iff]
      intro r hr
      simp [(mem_rwRequests hr).1, hb]
    rw [List.flatMap_cons, List.filter_append]
    rcases List.mem_cons.mp hq with rfl | hq
    · rw [hall q rfl]
      have : (l.flatMap Requirement.rwRequests).filter (fun r => decide (r.resId = q.resId)) = [] := by
        rw [List.filter_eq_nil_iff]
        intro r hr
        obtain ⟨b, hb, hr⟩ := List.mem_flatMap.mp hr
        have : b.resId ≠ q.resId := fun he => hn.1 (List.mem_map.mpr ⟨b, hb, he⟩)
        simp [(mem_rwRequests hr).1, this]
      rw [this, List.append_nil]
    · have : a.resId ≠ q.resId := fun he => hn.1 (List.mem_map.mpr ⟨q, hq, he.symm⟩)
      rw [hnone a this, ih hn.2 hq, List.nil_append]

/-- The position of the entry of a requirement in the mutex model. -/
theorem mutex_entry {l : List Requirement} (hn : (l.map (fun q => q.resId)).Nodup) {q : Requirement} (hq : q ∈ l)
    (hpos : q.writes + q.reads > 0) :
    ∃ k : ℕ, (l.flatMap Requirement.mutexRequests)[k]? =
        some (⟨q.resId, q.writes + q.reads, max q.writeLength q.readLength, false⟩ : Request) ∧
      ∀ (k' : ℕ) (e' : Request), (l.flatMap Requirement.mutexRequests)[k']? = some e' → e'.resId = q.resId → k' = k := by
  have hmem : (⟨q.resId, q.writes + q.reads, max q.writeLength q.readLength, false⟩ : Request) ∈
      l.flatMap Requirement.mutexRequests :=
    List.mem_flatMap.mpr ⟨q, hq, by unfold Requirement.mutexRequests; rw [if_pos hpos]; simp⟩
  obtain ⟨k, hk⟩ := List.getElem?_of_mem hmem
  refine ⟨k, hk, ?_⟩
  have hnd : ((l.flatMap Requirement.mutexRequests).map (fun r => r.resId)).Nodup := by
    have : (l.flatMap Requirement.mutexRequests).map (fun r => r.resId) =
        (l.filter (fun q => decide (q.writes + q.reads > 0))).map (fun q => q.resId) := by
      clear hn hq hmem hk
      induction l with
      | nil => rfl
      | cons a l ih =>
        rw [List.flatMap_cons, List.map_append, ih]
        unfold Requirement.mutexRequests
        by_cases h : a.writes + a.reads > 0
        · rw [if_pos h, List.filter_cons_of_pos (by simpa using h)]; rfl
        · rw [if_neg h, List.filter_cons_of_neg (by simpa using h)]; rfl
    rw [this]
    exact (List.filter_sublist.map _).nodup hn
  intro k' e' hk' he'
  have h1 : ((l.flatMap Requirement.mutexRequests).map (fun r => r.resId))[k]? = some q.resId := by
    rw [List.getElem?_map, hk]; rfl
  have h2 : ((l.flatMap Requirement.mutexRequests).map (fun r => r.resId))[k']? = some q.resId := by
    rw [List.getElem?_map, hk', Option.map_some, he']
  obtain ⟨l1, e1⟩ := List.getElem?_eq_some_iff.mp h1
  obtain ⟨l2, e2⟩ := List.getElem?_eq_some_iff.mp h2
  exact (List.Nodup.getElem_inj_iff hnd).mp (e2.trans e1.symm)

/-- `get_cpp_model` covers `get_cpp_model_rw`. -/
theorem mutexOf_models {ts : List LockTask} (hn : ∀ t ∈ ts, (t.resmodel.map (fun q => q.resId)).Nodup) :
    MutexOf (rwModel ts) (mutexModel ts) where
  size := by unfold rwModel mutexModel; simp
  same := by
    intro i t ht
    unfold rwModel at ht
    rw [List.getElem?_map, Option.map_eq_some_iff] at ht
    obtain ⟨u, hu, rfl⟩ := ht
    refine ⟨u.info (u.resmodel.flatMap Requirement.mutexRequests), ?_, rfl, rfl, rfl, ?_⟩
    · unfold mutexModel; rw [List.getElem?_map, hu]; rfl
    intro r hr hnum
    have hnu := hn u (List.mem_of_getElem? hu)
    obtain ⟨q, hq, hrq⟩ := List.mem_flatMap.mp hr
    obtain ⟨h1, _⟩ := mem_rwRequests hrq
    have hpos : q.writes + q.reads > 0 := by
      rw [← sum_rwRequests q]
      have := List.single_le_sum (by simp) _ (List.mem_map.mpr ⟨r, hrq, rfl⟩ : r.num ∈ q.rwRequests.map (fun r => r.num))
      omega
    obtain ⟨k, hk1, hk2⟩ := mutex_entry hnu hq hpos
    refine ⟨k, _, hk1, h1.symm, ?_, ?_, ?_⟩
    · intro k' e' a b
      exact hk2 k' e' a (by rw [b, h1])
    · rw [h1]
      change (((u.resmodel.flatMap Requirement.rwRequests).filter _).map _).sum ≤ _
      rw [filter_rw hnu hq, sum_rwRequests]
    · intro r' hr' he
      obtain ⟨q', hq', hrq'⟩ := List.mem_flatMap.mp hr'
      obtain ⟨h1', h2'⟩ := mem_rwRequests hrq'
      have : q' = q := requirement_unique hnu hq' hq (by rw [← h1', ← h1, he])
      subst this
      rcases h2' with ⟨_, h⟩ | ⟨_, h⟩ <;> rw [h]
      · exact le_max_right _ _
      · exact le_max_left _ _

end Verif.SR.Rw
