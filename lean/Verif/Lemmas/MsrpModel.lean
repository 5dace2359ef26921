import Verif.Model.Msrp
import Verif.Lemmas.Msrp
import Verif.Props.SpinLocks
import Verif.Props.Qpa

/-! What the MSRP analysis of the model computes. -/

namespace Verif.SR.Msrp
open Spec

/-- The tasks of a `ResourceSharingInfo`. -/
def system (info : Info) : LockSystem info.length where
  proc i := (info.get i).cluster
  cost i := (info.get i).cost
  period i := (info.get i).period
  deadline i := (info.get i).deadline
  reqs i := (info.get i).requests.map (fun q => ⟨q.resId, q.num, q.length⟩)

theorem mem_reqs {info : Info} {i : Fin info.length} {q : Req} :
    q ∈ (system info).reqs i ↔ ∃ q' ∈ (info.get i).requests, (⟨q'.resId, q'.num, q'.length⟩ : Req) = q := by
  simp [system]

theorem uses_iff {info : Info} {i : Fin info.length} {r : ℕ} :
    (system info).Uses i r ↔ ∃ q ∈ (info.get i).requests, q.resId = r := by
  unfold LockSystem.Uses
  constructor
  · rintro ⟨q, hq, hr⟩
    obtain ⟨q', hq', rfl⟩ := mem_reqs.1 hq
    exact ⟨q', hq', hr⟩
  · rintro ⟨q, hq, hr⟩
    exact ⟨_, mem_reqs.2 ⟨q, hq, rfl⟩, hr⟩

/-! ### Splitting -/

theorem getD_clusters (info : Info) (m k : ℕ) :
    (clusters info m).getD k [] = (indexed info).filter (fun t => t.2.cluster = k) := by
  unfold clusters
  have := getD_fold (fun t : TaskInfo × ℕ => t.1.cluster) (fun t => (t.2, t.1)) info.zipIdx
    (List.replicate m []) k
  rw [this]
  have e : (List.replicate m ([] : List (ℕ × TaskInfo))).getD k [] = [] := by
    rw [List.getD_eq_getElem?_getD, List.getElem?_replicate]
    split_ifs <;> rfl
  rw [e]
  unfold indexed
  rw [List.filter_map]
  simp [Function.comp_def]

theorem getD_requests (info : Info) (r : ℕ) :
    (requests info).getD r [] = requestsFor (indexed info) r := getD_splitByResource _ _

/-- The requests for a resource, in terms of tasks. -/
theorem exists_request {info : Info} {r : ℕ} {P : TaskInfo → Prop} :
    (∃ rb ∈ (requests info).getD r [], P rb.info) ↔
      ∃ i : Fin info.length, (system info).Uses i r ∧ P (info.get i) := by
  rw [getD_requests]
  constructor
  · rintro ⟨rb, hrb, hP⟩
    rw [mem_requestsFor, mem_indexed] at hrb
    obtain ⟨h1, h2, h3⟩ := hrb
    simp only at h1
    obtain ⟨hlt, he⟩ := List.getElem?_eq_some_iff.1 h1
    refine ⟨⟨rb.task, hlt⟩, uses_iff.2 ?_, ?_⟩
    · rw [List.get_eq_getElem]; simp only; rw [he]
      exact ⟨rb.req, List.mem_of_getElem? h2, h3⟩
    · rw [List.get_eq_getElem]; simp only; rw [he]; exact hP
  · rintro ⟨i, hu, hP⟩
    obtain ⟨q, hq, hr⟩ := uses_iff.1 hu
    obtain ⟨l, hl⟩ := List.getElem?_of_mem hq
    refine ⟨⟨i, info.get i, l, q⟩, ?_, hP⟩
    rw [mem_requestsFor, mem_indexed]
    exact ⟨by simp, hl, hr⟩

theorem isGlobal_iff {info : Info} {r : ℕ} : isGlobal info r = true ↔ (system info).Global r := by
  unfold isGlobal
  rw [decide_eq_true_eq]
  have h2 : ∀ l : List ℕ, l.dedup.length > 1 ↔ ∃ a ∈ l, ∃ b ∈ l, a ≠ b := by
    intro l
    constructor
    · intro h
      have hn := List.nodup_dedup l
      refine ⟨l.dedup[0], List.mem_dedup.1 (List.getElem_mem (by omega)), l.dedup[1],
        List.mem_dedup.1 (List.getElem_mem h), ?_⟩
      intro he
      have := (hn.getElem_inj_iff).1 he
      omega
    · rintro ⟨a, ha, b, hb, hne⟩
      by_contra hle
      have hle : l.dedup.length ≤ 1 := by omega
      have ha' := List.mem_dedup.2 ha
      have hb' := List.mem_dedup.2 hb
      obtain ⟨x, hx, rfl⟩ := List.getElem_of_mem ha'
      obtain ⟨y, hy, rfl⟩ := List.getElem_of_mem hb'
      apply hne
      have : x = y := by omega
      subst this; rfl
  rw [h2]
  constructor
  · rintro ⟨a, ha, b, hb, hne⟩
    rw [List.mem_map] at ha hb
    obtain ⟨ra, hra, rfl⟩ := ha
    obtain ⟨rb, hrb, rfl⟩ := hb
    obtain ⟨i, hi, hi2⟩ := (exists_request (P := fun t => t.cluster = ra.info.cluster)).1 ⟨ra, hra, rfl⟩
    obtain ⟨k, hk, hk2⟩ := (exists_request (P := fun t => t.cluster = rb.info.cluster)).1 ⟨rb, hrb, rfl⟩
    refine ⟨i, k, hi, hk, ?_⟩
    show (info.get i).cluster ≠ (info.get k).cluster
    rw [hi2, hk2]; exact hne
  · rintro ⟨i, k, hi, hk, hne⟩
    obtain ⟨ra, hra, ea⟩ := (exists_request (P := fun t => t.cluster = (info.get i).cluster)).2 ⟨i, hi, rfl⟩
    obtain ⟨rb, hrb, eb⟩ := (exists_request (P := fun t => t.cluster = (info.get k).cluster)).2 ⟨k, hk, rfl⟩
    refine ⟨_, List.mem_map.2 ⟨ra, hra, rfl⟩, _, List.mem_map.2 ⟨rb, hrb, rfl⟩, ?_⟩
    rw [ea, eb]; exact hne

theorem foldl_min_le {α : Type} (f : α → ℕ) (l : List α) : ∀ a b : ℕ,
    l.foldl (fun c x => min c (f x)) a ≤ b ↔ a ≤ b ∨ ∃ x ∈ l, f x ≤ b := by
  induction l with
  | nil => intro a b; simp
  | cons x l ih =>
    intro a b
    rw [List.foldl_cons, ih, min_le_iff]
    simp [or_assoc]

theorem ceilingOf_le_of {info : Info} {r b : ℕ}
    (h : ∃ i, (system info).Uses i r ∧ (info.get i).priority ≤ b) : ceilingOf info r ≤ b := by
  unfold ceilingOf
  rw [foldl_min_le, exists_request (P := fun t => t.priority ≤ b)]
  exact Or.inr h

theorem ceilingOf_le {info : Info} {r b : ℕ} (hb : b < uintMax) :
    ceilingOf info r ≤ b ↔ ∃ i, (system info).Uses i r ∧ (info.get i).priority ≤ b := by
  unfold ceilingOf
  rw [foldl_min_le, exists_request (P := fun t => t.priority ≤ b)]
  constructor
  · rintro (h | h)
    · omega
    · exact h
  · exact Or.inr

/-! ### Maxima -/

theorem foldl_max_le {α : Type} (c : α → Prop) [DecidablePred c] (f : α → ℕ) (l : List α) : ∀ a b : ℕ,
    l.foldl (fun acc x => if c x then max acc (f x) else acc) a ≤ b ↔
      a ≤ b ∧ ∀ x ∈ l, c x → f x ≤ b := by
  induction l with
  | nil => intro a b; simp
  | cons x l ih =>
    intro a b
    rw [List.foldl_cons, ih]
    split_ifs with h
    · simp [h, and_assoc]
    · simp [h]

theorem foldl_max_le' {α : Type} (c : α → Prop) [DecidablePred c] (f : α → ℕ) (l : List α) (a b : ℕ) :
    l.foldl (fun acc x => if c x then acc else max acc (f x)) a ≤ b ↔
      a ≤ b ∧ ∀ x ∈ l, ¬ c x → f x ≤ b := by
  rw [← foldl_max_le (fun x => ¬ c x) f l a b]
  have : (fun (acc : ℕ) x => if c x then acc else max acc (f x))
      = (fun acc x => if ¬ c x then max acc (f x) else acc) := by
    funext acc x; by_cases h : c x <;> simp [h]
  rw [this]

/-- Nested maxima. -/
theorem foldl_nested_le {α : Type} (g : ℕ → α → ℕ) (P : α → ℕ → Prop)
    (hg : ∀ acc x b, g acc x ≤ b ↔ acc ≤ b ∧ P x b) (l : List α) : ∀ a b : ℕ,
    l.foldl g a ≤ b ↔ a ≤ b ∧ ∀ x ∈ l, P x b := by
  induction l with
  | nil => intro a b; simp
  | cons x l ih =>
    intro a b
    rw [List.foldl_cons, ih, hg]
    simp [and_assoc]

theorem mem_cluster {info : Info} {k : ℕ} {t : ℕ × TaskInfo} :
    t ∈ (indexed info).filter (fun t => t.2.cluster = k) ↔ info[t.1]? = some t.2 ∧ t.2.cluster = k := by
  rw [List.mem_filter, mem_indexed]; simp

theorem forall_cluster {info : Info} {k : ℕ} {P : TaskInfo → Prop} :
    (∀ t ∈ (indexed info).filter (fun t => t.2.cluster = k), P t.2) ↔
      ∀ i : Fin info.length, (info.get i).cluster = k → P (info.get i) := by
  constructor
  · intro h i hi
    exact h (i, info.get i) (mem_cluster.2 ⟨by simp, hi⟩)
  · intro h t ht
    obtain ⟨h1, h2⟩ := mem_cluster.1 ht
    obtain ⟨hlt, he⟩ := List.getElem?_eq_some_iff.1 h1
    have := h ⟨t.1, hlt⟩
    simp only [List.get_eq_getElem, he] at this
    exact this h2

theorem maxCsl_le {info : Info} {m k r b : ℕ} :
    maxCsl ((clusters info m).getD k []) r ≤ b ↔
      ∀ i : Fin info.length, (info.get i).cluster = k → ∀ q ∈ (info.get i).requests,
        q.resId = r → q.length ≤ b := by
  unfold maxCsl
  rw [getD_clusters, foldl_nested_le _ (fun t b => ∀ q ∈ t.2.requests, q.resId = r → q.length ≤ b)
    (fun acc t b => foldl_max_le (fun q : Request => q.resId = r) (fun q => q.length) _ acc b)]
  rw [forall_cluster (P := fun t => ∀ q ∈ t.requests, q.resId = r → q.length ≤ b)]
  simp

theorem longest_le {info : Info} {k r b : ℕ} :
    (system info).longest k r ≤ b ↔
      ∀ i : Fin info.length, (info.get i).cluster = k → ∀ q ∈ (info.get i).requests,
        q.resId = r → q.length ≤ b := by
  have hf : ∀ (l : List ℕ), l.foldr max 0 ≤ b ↔ ∀ x ∈ l, x ≤ b := by
    intro l
    induction l with
    | nil => simp
    | cons x l ih => simp [ih]
  unfold LockSystem.longest
  rw [Finset.sup_le_iff]
  constructor
  · intro h i hi q hq hr
    have := h i (Finset.mem_univ _)
    rw [if_pos (show (system info).proc i = k from hi), hf] at this
    have h2 := this q.length (List.mem_map.2 ⟨⟨q.resId, q.num, q.length⟩, mem_reqs.2 ⟨q, hq, rfl⟩, by simp [hr]⟩)
    exact h2
  · intro h i _
    split_ifs with hi
    · rw [hf]
      intro x hx
      obtain ⟨q, hq, rfl⟩ := List.mem_map.1 hx
      obtain ⟨q', hq', rfl⟩ := mem_reqs.1 hq
      simp only
      split_ifs with hr
      · exact h i hi q' hq' hr
      · exact Nat.zero_le _
    · exact Nat.zero_le _

theorem maxCsl_eq (info : Info) (m k r : ℕ) :
    maxCsl ((clusters info m).getD k []) r = (system info).longest k r := by
  apply le_antisymm
  · rw [maxCsl_le, ← longest_le]
  · rw [longest_le, ← maxCsl_le (m := m)]

theorem foldl_add_if (c : ℕ → Prop) [DecidablePred c] (f : ℕ → ℕ) (m : ℕ) : ∀ a,
    (List.range m).foldl (fun acc x => if c x then acc + f x else acc) a
      = a + ∑ x ∈ Finset.range m, if c x then f x else 0 := by
  induction m with
  | zero => intro a; simp
  | succ m ih =>
    intro a
    rw [List.range_succ, List.foldl_append, ih, Finset.sum_range_succ]
    simp only [List.foldl_cons, List.foldl_nil]
    split_ifs <;> omega

theorem cslSum_eq (info : Info) (m : ℕ) (i : Fin info.length) (r : ℕ) :
    cslSum info m (info.get i) r = (system info).spinBound m i r := by
  unfold cslSum LockSystem.spinBound
  rw [foldl_add_if, zero_add, ← Finset.sum_filter]
  have e : (Finset.range m).filter (fun x => x ≠ (info.get i).cluster)
      = (Finset.range m).erase ((system info).proc i) := by
    ext x; simp [system, and_comm]
  rw [e]
  exact Finset.sum_congr rfl (fun k _ => maxCsl_eq info m k r)

/-! ### Remote and local bounds -/

theorem remote_fold (info : Info) (m : ℕ) (i : Fin info.length) (l : List Request) :
    ∀ (a : Interference × ℕ),
    (l.foldl (fun acc q =>
      if isGlobal info q.resId = false then acc
      else
        let sum := cslSum info m (info.get i) q.resId
        ((⟨acc.1.count + q.num, acc.1.total + q.num * sum⟩ : Interference), max acc.2 (sum + q.length))) a).1.total
      = a.1.total + (l.map (fun q => if isGlobal info q.resId = true then
          q.num * (system info).spinBound m i q.resId else 0)).sum ∧
    ∀ b, (l.foldl (fun acc q =>
      if isGlobal info q.resId = false then acc
      else
        let sum := cslSum info m (info.get i) q.resId
        ((⟨acc.1.count + q.num, acc.1.total + q.num * sum⟩ : Interference), max acc.2 (sum + q.length))) a).2 ≤ b
      ↔ a.2 ≤ b ∧ ∀ q ∈ l, isGlobal info q.resId = true →
        (system info).spinBound m i q.resId + q.length ≤ b := by
  induction l with
  | nil => intro a; simp
  | cons q l ih =>
    intro a
    simp only [List.foldl_cons]
    obtain ⟨h1, h2⟩ := ih (if isGlobal info q.resId = false then a
      else ((⟨a.1.count + q.num, a.1.total + q.num * cslSum info m (info.get i) q.resId⟩ : Interference),
        max a.2 (cslSum info m (info.get i) q.resId + q.length)))
    simp only at h1 h2
    refine ⟨?_, fun b => ?_⟩
    · rw [h1]
      cases hg : isGlobal info q.resId
      · simp [hg]
      · simp only [Bool.true_eq_false, if_false, List.map_cons, List.sum_cons, hg, if_true, cslSum_eq]
        omega
    · rw [h2]
      cases hg : isGlobal info q.resId
      · simp [hg]
      · simp only [Bool.true_eq_false, if_false, cslSum_eq, List.mem_cons, forall_eq_or_imp, hg,
          max_le_iff, forall_const, and_assoc]

theorem cost_remote (info : Info) (m : ℕ) (i : Fin info.length) :
    (info.get i).cost + (remoteBound info m (info.get i)).1.total = (system info).inflated m i := by
  classical
  unfold remoteBound LockSystem.inflated
  rw [(remote_fold info m i _ _).1]
  show (info.get i).cost + (0 + _) = (info.get i).cost + _
  rw [zero_add]
  congr 1
  show _ = (((info.get i).requests.map (fun q => (⟨q.resId, q.num, q.length⟩ : Req))).map _).sum
  rw [List.map_map]
  congr 1
  apply List.map_congr_left
  intro q _
  simp only [Function.comp_apply]
  by_cases hg : (system info).Global q.resId
  · rw [if_pos (isGlobal_iff.2 hg), if_pos hg]
  · rw [if_neg (fun h => hg (isGlobal_iff.1 h)), if_neg hg]

theorem npBlocking_le {info : Info} {m b : ℕ} {i : Fin info.length} (hm : (info.get i).cluster < m) :
    npBlocking info m (info.get i) ≤ b ↔ ∀ q ∈ (info.get i).requests, (system info).Global q.resId →
      (system info).spinBound m i q.resId + q.length ≤ b := by
  unfold npBlocking
  rw [if_pos hm]
  unfold remoteBound
  rw [(remote_fold info m i _ _).2 b]
  simp only [isGlobal_iff, Nat.zero_le, true_and]

theorem localBound_le {info : Info} {m k t b : ℕ} {tsk : TaskInfo} :
    (localBound info tsk ((clusters info m).getD k []) t).total ≤ b ↔
      ∀ a : Fin info.length, (info.get a).cluster = k → ∀ q ∈ (info.get a).requests,
        ¬ ((info.get a).priority ≤ tsk.priority ∨ isGlobal info q.resId = true
        ∨ ceilingOf info q.resId > tsk.priority ∨ (info.get a).deadline ≤ t) → q.length ≤ b := by
  unfold localBound
  rw [getD_clusters]
  set M := ((indexed info).filter (fun t => t.2.cluster = k)).foldl (fun acc x => x.2.requests.foldl (fun acc q =>
    if x.2.priority ≤ tsk.priority ∨ isGlobal info q.resId = true
        ∨ ceilingOf info q.resId > tsk.priority ∨ x.2.deadline ≤ t then acc
    else max acc q.length) acc) 0 with hM
  have e : ∀ b, M ≤ b ↔ _ := fun b => by
    rw [hM, foldl_nested_le _ (fun x b => ∀ q ∈ x.2.requests,
      ¬ (x.2.priority ≤ tsk.priority ∨ isGlobal info q.resId = true
        ∨ ceilingOf info q.resId > tsk.priority ∨ x.2.deadline ≤ t) → q.length ≤ b)
      (fun acc x b => foldl_max_le' (fun q : Request => x.2.priority ≤ tsk.priority ∨ isGlobal info q.resId = true
        ∨ ceilingOf info q.resId > tsk.priority ∨ x.2.deadline ≤ t) (fun q => q.length) _ acc b),
      forall_cluster (P := fun x => ∀ q ∈ x.requests,
      ¬ (x.priority ≤ tsk.priority ∨ isGlobal info q.resId = true
        ∨ ceilingOf info q.resId > tsk.priority ∨ x.deadline ≤ t) → q.length ≤ b)]
  have e2 : (if M > 0 then (⟨1, M⟩ : Interference) else {}).total = M := by
    split_ifs with h
    · rfl
    · show 0 = M; omega
  show (if M > 0 then (⟨1, M⟩ : Interference) else {}).total ≤ b ↔ _
  rw [e2, e]
  simp

/-- What the analysis assumes of the preemption levels: they order the tasks by relative
deadline. -/
def EdfLevels (info : Info) : Prop :=
  ∀ a ∈ info, ∀ b ∈ info, a.priority ≤ b.priority ↔ a.deadline ≤ b.deadline

theorem forall_zipIdx {info : Info} {P : TaskInfo → ℕ → Prop} :
    (∀ x ∈ info.zipIdx, P x.1 x.2) ↔ ∀ i : Fin info.length, P (info.get i) i := by
  constructor
  · intro h i
    exact h (info.get i, i) (List.mem_zipIdx_iff_getElem?.2 (by simp))
  · intro h x hx
    have h1 := List.mem_zipIdx_iff_getElem?.1 hx
    obtain ⟨hlt, he⟩ := List.getElem?_eq_some_iff.1 h1
    have := h ⟨x.2, hlt⟩
    simp only [List.get_eq_getElem, he] at this
    exact this

theorem edfArrivalBlocking_iff {info : Info} {m k t b : ℕ} (hk : k < m) :
    edfArrivalBlocking info m t k ≤ b ↔ ∀ i : Fin info.length, (info.get i).deadline ≤ t →
      (info.get i).cluster = k →
      (∀ y ∈ info.zipIdx, ¬ (y.1.cluster ≠ (info.get i).cluster ∨ y.1.priority < (info.get i).priority
        ∨ (i : ℕ) = y.2 ∨ y.1.deadline ≤ t) → npBlocking info m y.1 ≤ b) ∧
      (localBound info (info.get i) ((clusters info m).getD (info.get i).cluster []) t).total ≤ b := by
  unfold edfArrivalBlocking
  rw [foldl_nested_le _ (fun x b => x.1.deadline ≤ t → x.1.cluster = k →
    (∀ y ∈ info.zipIdx, ¬ (y.1.cluster ≠ x.1.cluster ∨ y.1.priority < x.1.priority ∨ x.2 = y.2
            ∨ y.1.deadline ≤ t) → npBlocking info m y.1 ≤ b) ∧
    (localBound info x.1 ((clusters info m).getD x.1.cluster []) t).total ≤ b)]
  swap
  · intro acc x b
    by_cases h1 : x.1.deadline > t ∨ x.1.cluster ≠ k
    · rw [if_pos h1]
      constructor
      · intro h; exact ⟨h, fun h2 h3 => by rcases h1 with h1 | h1; omega; exact absurd h3 h1⟩
      · exact fun h => h.1
    · rw [if_neg h1]
      push Not at h1
      rw [if_pos (by rw [h1.2]; exact hk)]
      simp only
      rw [max_le_iff, foldl_max_le]
      simp only [h1.1, h1.2, forall_const, and_assoc]
  rw [and_iff_right (Nat.zero_le _)]
  rw [forall_zipIdx (P := fun x ix => x.deadline ≤ t → x.cluster = k →
    (∀ y ∈ info.zipIdx, ¬ (y.1.cluster ≠ x.cluster ∨ y.1.priority < x.priority ∨ ix = y.2
            ∨ y.1.deadline ≤ t) → npBlocking info m y.1 ≤ b) ∧
    (localBound info x ((clusters info m).getD x.cluster []) t).total ≤ b)]

/-- The arrival blocking covers every section by which a task with a deadline beyond the
interval can block one with a deadline within. -/
theorem edfArrivalBlocking_covers {info : Info} (hlev : EdfLevels info) {m k t b : ℕ} (hk : k < m) :
    edfArrivalBlocking info m t k ≤ b →
      ∀ i a, (system info).proc i = k → (system info).proc a = k → (system info).deadline i ≤ t →
        t < (system info).deadline a → ∀ q ∈ (system info).reqs a,
        ((system info).Global q.res ∨
          ∃ k, (system info).Uses k q.res ∧ (system info).deadline k ≤ (system info).deadline i) →
        (system info).sectionBound m a q ≤ b := by
  classical
  have hmem : ∀ i : Fin info.length, info.get i ∈ info := fun i => List.get_mem _ _
  rw [edfArrivalBlocking_iff hk]
  intro h i a hi ha hd hda q hq hc
  obtain ⟨q', hq', rfl⟩ := mem_reqs.1 hq
  simp only at hc
  obtain ⟨hnp, hloc⟩ := h i hd hi
  unfold LockSystem.sectionBound
  simp only
  change (info.get i).cluster = k at hi
  change (info.get a).cluster = k at ha
  change (info.get i).deadline ≤ t at hd
  change t < (info.get a).deadline at hda
  by_cases hg : (system info).Global q'.resId
  · rw [if_pos hg]
    rw [forall_zipIdx (P := fun y iy => ¬ (y.cluster ≠ (info.get i).cluster ∨
      y.priority < (info.get i).priority ∨ (i : ℕ) = iy ∨ y.deadline ≤ t) → npBlocking info m y ≤ b)] at hnp
    have hl := (hlev _ (hmem i) _ (hmem a)).2 (by omega)
    have := hnp a (by
      rintro (h1 | h1 | h1 | h1)
      · exact h1 (ha.trans hi.symm)
      · omega
      · have : i = a := Fin.ext h1
        subst this; omega
      · omega)
    rw [npBlocking_le (by rw [ha]; exact hk)] at this
    exact this q' hq' hg
  · rw [if_neg hg]
    rw [localBound_le] at hloc
    refine hloc a (by rw [ha, hi]) q' hq' ?_
    rcases hc with hc | ⟨x, hx, hxd⟩
    · exact absurd hc hg
    rintro (h1 | h1 | h1 | h1)
    · have := (hlev _ (hmem a) _ (hmem i)).1 h1; omega
    · exact hg (isGlobal_iff.1 h1)
    · have := ceilingOf_le_of (info := info) (r := q'.resId)
        ⟨x, hx, (hlev _ (hmem x) _ (hmem i)).2 hxd⟩
      omega
    · omega

/-- The arrival blocking is the longest such section. -/
theorem edfArrivalBlocking_le {info : Info} (hlev : EdfLevels info)
    (hu : ∀ t ∈ info, t.priority < uintMax) {m k t b : ℕ} (hk : k < m) :
    edfArrivalBlocking info m t k ≤ b ↔
      ∀ i a, (system info).proc i = k → (system info).proc a = k → (system info).deadline i ≤ t →
        t < (system info).deadline a → ∀ q ∈ (system info).reqs a,
        ((system info).Global q.res ∨
          ∃ k, (system info).Uses k q.res ∧ (system info).deadline k ≤ (system info).deadline i) →
        (system info).sectionBound m a q ≤ b := by
  classical
  refine ⟨edfArrivalBlocking_covers hlev hk, ?_⟩
  have hmem : ∀ i : Fin info.length, info.get i ∈ info := fun i => List.get_mem _ _
  rw [edfArrivalBlocking_iff hk]
  intro h i hd hi
  refine ⟨?_, ?_⟩
  · rw [forall_zipIdx (P := fun y iy => ¬ (y.cluster ≠ (info.get i).cluster ∨
      y.priority < (info.get i).priority ∨ (i : ℕ) = iy ∨ y.deadline ≤ t) → npBlocking info m y ≤ b)]
    intro a hc
    push Not at hc
    obtain ⟨c1, c2, c3, c4⟩ := hc
    rw [npBlocking_le (by rw [c1, hi]; exact hk)]
    intro q hq hg
    have := h i a hi (c1.trans hi) hd c4 ⟨q.resId, q.num, q.length⟩ (mem_reqs.2 ⟨q, hq, rfl⟩) (Or.inl hg)
    unfold LockSystem.sectionBound at this
    simp only at this
    rwa [if_pos hg] at this
  · rw [localBound_le]
    intro a ha q hq hc
    push Not at hc
    obtain ⟨c1, c2, c3, c4⟩ := hc
    have hng : ¬ (system info).Global q.resId := fun hg => c2 (isGlobal_iff.2 hg)
    obtain ⟨x, hx, hxp⟩ := (ceilingOf_le (info := info) (r := q.resId) (hu _ (hmem i))).1 c3
    have := h i a hi (ha.trans hi) hd c4 ⟨q.resId, q.num, q.length⟩ (mem_reqs.2 ⟨q, hq, rfl⟩)
      (Or.inr ⟨x, hx, (hlev _ (hmem x) _ (hmem i)).1 hxp⟩)
    unfold LockSystem.sectionBound at this
    simp only at this
    rwa [if_neg hng] at this

/-! ### The task set of a processor -/

theorem partition_eq {info : Info} {m : ℕ} (hm : ∀ t ∈ info, t.cluster < m) (k : ℕ) :
    partition info m k = (List.finRange info.length).filterMap (fun i =>
      if (info.get i).cluster = k then
        some (Native.Task.init ((system info).inflated m i) (info.get i).period (info.get i).deadline)
      else none) := by
  have e : info.zip (msrpBounds info m) = (List.finRange info.length).map
      (fun i => (info.get i, taskBounds info m i (info.get i))) := by
    unfold msrpBounds
    apply List.ext_getElem
    · simp
    · intro i h1 h2
      simp
  unfold partition
  rw [e, List.filterMap_map]
  apply List.filterMap_congr
  intro i _
  simp only [Function.comp_apply]
  split_ifs with h1
  · rw [← cost_remote]
    unfold taskBounds
    simp only
    rw [if_pos (hm _ (List.get_mem info i))]
  · rfl

/-- What is assumed of the tasks. -/
structure Wf (info : Info) (m : ℕ) : Prop where
  period : ∀ t ∈ info, 0 < t.period
  deadline : ∀ t ∈ info, 0 < t.deadline
  cluster : ∀ t ∈ info, t.cluster < m

theorem mem_partition {info : Info} {m : ℕ} (hw : Wf info m) {k : ℕ} {t : Native.Task} :
    t ∈ partition info m k ↔ ∃ i : Fin info.length, (info.get i).cluster = k ∧
      t.wcet = (system info).inflated m i ∧ t.period = (info.get i).period ∧
      t.deadline = (info.get i).deadline ∧
      t = Native.Task.init ((system info).inflated m i) (info.get i).period (info.get i).deadline := by
  rw [partition_eq hw.cluster, List.mem_filterMap]
  constructor
  · rintro ⟨i, _, h⟩
    split_ifs at h with hc
    obtain rfl := Option.some.inj h
    refine ⟨i, hc, rfl, rfl, ?_, rfl⟩
    unfold Native.Task.init
    simp only
    have := hw.deadline _ (List.get_mem info i)
    rw [if_neg (by omega)]
  · rintro ⟨i, hc, _, _, _, h⟩
    exact ⟨i, List.mem_finRange i, by rw [if_pos hc, h]⟩

theorem sum_filterMap {α β : Type} (f : α → Option β) (h : β → ℕ) (l : List α) :
    ((l.filterMap f).map h).sum = (l.map (fun x => (f x).elim 0 h)).sum := by
  induction l with
  | nil => rfl
  | cons x l ih =>
    rw [List.filterMap_cons]
    cases hx : f x with
    | none => simp [hx, ih]
    | some y => simp [hx, ih]

theorem boundDemand_partition {info : Info} {m : ℕ} (hw : Wf info m) (k t : ℕ) :
    (partition info m k).boundDemand t = (system info).procDemand m k t := by
  unfold Native.TaskSet.boundDemand LockSystem.procDemand demand
  rw [partition_eq hw.cluster, sum_filterMap, Fin.sum_univ_def]
  congr 1
  apply List.map_congr_left
  intro i _
  have hT := hw.period _ (List.get_mem info i)
  have hD := hw.deadline _ (List.get_mem info i)
  show _ = _ * (if (info.get i).cluster = k then _ else 0)
  rw [card_periodic _ _ _ (show 0 < (system info).period i from hT)]
  by_cases hc : (info.get i).cluster = k
  · rw [if_pos hc, if_pos hc]
    show Native.Task.boundDemand _ t = _
    unfold Native.Task.boundDemand Native.Task.init
    simp only
    rw [if_neg (show ¬ (info.get i).deadline = 0 by omega)]
    show (if t < (info.get i).deadline then 0 else _) = (if t < (info.get i).deadline then 0 else _) * _
    split_ifs
    · simp
    · rfl
  · rw [if_neg hc, if_neg hc]
    simp

theorem demand_jump {n : ℕ} {C T D : Fin n → ℕ} (x : Fin n) {a b : ℕ} (h1 : a < D x) (h2 : D x ≤ b) :
    demand C T D a + C x ≤ demand C T D b := by
  have hmono : ∀ i, ((Finset.range (a + 1)).filter (fun k => k * T i + D i ≤ a)).card
      ≤ ((Finset.range (b + 1)).filter (fun k => k * T i + D i ≤ b)).card := by
    intro i
    apply Finset.card_le_card
    intro k hk
    simp only [Finset.mem_filter, Finset.mem_range] at hk ⊢
    omega
  unfold demand
  rw [← Finset.add_sum_erase _ _ (Finset.mem_univ x), ← Finset.add_sum_erase Finset.univ
    (fun i => ((Finset.range (b + 1)).filter (fun k => k * T i + D i ≤ b)).card * C i) (Finset.mem_univ x)]
  have h3 : ((Finset.range (a + 1)).filter (fun k => k * T x + D x ≤ a)).card = 0 := by
    rw [Finset.card_eq_zero, Finset.filter_eq_empty_iff]
    intro k _
    have := Nat.zero_le (k * T x)
    omega
  have h4 : 1 ≤ ((Finset.range (b + 1)).filter (fun k => k * T x + D x ≤ b)).card := by
    rw [Nat.one_le_iff_ne_zero, ← Nat.pos_iff_ne_zero, Finset.card_pos]
    exact ⟨0, by simp [h2]⟩
  have h5 := Finset.sum_le_sum (fun i (_ : i ∈ Finset.univ.erase x) => Nat.mul_le_mul_right (C i) (hmono i))
  have h6 := Nat.mul_le_mul_right (C x) h4
  rw [h3]
  omega

theorem procDemand_jump {n : ℕ} (S : LockSystem n) (m : ℕ) (x : Fin n) {a b : ℕ} (h1 : a < S.deadline x)
    (h2 : S.deadline x ≤ b) :
    S.procDemand m (S.proc x) a + S.inflated m x ≤ S.procDemand m (S.proc x) b := by
  unfold LockSystem.procDemand
  have := demand_jump (C := fun i => if S.proc i = S.proc x then S.inflated m i else 0) (T := S.period)
    (D := S.deadline) x h1 h2
  simpa using this

theorem le_maxRelativeDeadline {ts : Native.TaskSet} {t : Native.Task} (ht : t ∈ ts) :
    t.deadline ≤ maxRelativeDeadline ts := by
  have := (foldl_max_le (fun _ : Native.Task => True) (fun t => t.deadline) ts 0
    (maxRelativeDeadline ts)).1 (by unfold maxRelativeDeadline; simp)
  exact this.2 t ht trivial

theorem getDemand_ge {info : Info} {m k : ℕ} (ts : Native.TaskSet) (t : ℕ) :
    ts.boundDemand t ≤ getDemand info m k ts t := by
  unfold getDemand
  split_ifs <;> omega

/-- If the test accepts a task set, every step function that is between the demand and the
demand the test uses, and equals the former from the largest deadline on, fits. -/
theorem isSchedulable_safe {info : Info} {m k fuel : ℕ} {ts : Native.TaskSet}
    (hT : ∀ t ∈ ts, 0 < t.period) (hD : ∀ t ∈ ts, 0 < t.deadline)
    (h : isSchedulable fuel info m k ts = some true) {dem : ℕ → ℕ} (hdem : Native.StepDemand ts dem)
    (hle : ∀ t, dem t ≤ getDemand info m k ts t) (hge : ∀ t, ts.boundDemand t ≤ dem t)
    (heq : ∀ t, maxRelativeDeadline ts ≤ t → dem t = ts.boundDemand t) (t : ℕ) : dem t ≤ t := by
  unfold isSchedulable at h
  by_cases hU : ts.utilization > 1
  · rw [if_pos hU] at h; simp at h
  rw [if_neg hU] at h
  split at h
  · simp at h
  · rename_i M hM
    simp only at h
    split at h
    · simp at h
    · rename_i interval demand hloop
      have hex : Native.exceeds demand (Native.minRelativeDeadline ts) = false := by
        simpa using h
      refine Native.qpaLoop_safe hdem hle fuel _ interval demand ?_ hloop hex t
      intro h1 h2
      have hlow : ∀ t < max M (maxRelativeDeadline ts), dem t ≤ t := by
        intro t ht
        by_cases htl : t < Native.largestTestpoint ts (max M (maxRelativeDeadline ts))
        · exact h2 t htl
        · rw [hdem.const (by omega) ht]; omega
      have hall := Native.demand_of_maxInterval hT hD hM
        (fun t ht => (hge t).trans (hlow t (lt_of_lt_of_le ht (le_max_left _ _))))
      intro t
      by_cases ht : t < max M (maxRelativeDeadline ts)
      · exact hlow t ht
      · rw [heq t ((le_max_right _ _).trans (not_lt.1 ht))]
        exact hall t

end Verif.SR.Msrp
