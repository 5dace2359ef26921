/-
Lemmas on the model of the analysis of the MPCP.
-/
import Verif.Model.Mpcp
import Verif.Spec.Mpcp
import Verif.Lemmas.FmlpModel

namespace Verif.SR.Mpcp
open Verif.Spec
open Verif.SR.Msrp (system requests uintMax)

variable {info : Info}

/-! ### Ceilings -/

theorem foldMin (c : ℕ) (l : List RB) : ∀ a : ℕ,
    l.foldl (fun ceiling req => if req.info.cluster ≠ c then min ceiling req.info.priority else ceiling) a ≤ a ∧
    (∀ r ∈ l, r.info.cluster ≠ c → l.foldl (fun ceiling req =>
      if req.info.cluster ≠ c then min ceiling req.info.priority else ceiling) a ≤ r.info.priority) ∧
    (l.foldl (fun ceiling req => if req.info.cluster ≠ c then min ceiling req.info.priority else ceiling) a = a ∨
      ∃ r ∈ l, r.info.cluster ≠ c ∧ l.foldl (fun ceiling req =>
        if req.info.cluster ≠ c then min ceiling req.info.priority else ceiling) a = r.info.priority) := by
  induction l with
  | nil => intro a; simp
  | cons x l ih =>
    intro a
    simp only [List.foldl_cons]
    by_cases hx : x.info.cluster ≠ c
    · rw [if_pos hx]
      obtain ⟨h1, h2, h3⟩ := ih (min a x.info.priority)
      refine ⟨by omega, ?_, ?_⟩
      · intro r hr hc
        rcases List.mem_cons.1 hr with rfl | hr
        · omega
        · exact h2 r hr hc
      · rcases h3 with h3 | ⟨r, hr, hc, h3⟩
        · rcases Nat.le_total a x.info.priority with h | h
          · left; rw [h3]; omega
          · right; exact ⟨x, List.mem_cons_self, hx, by rw [h3]; omega⟩
        · right; exact ⟨r, List.mem_cons_of_mem _ hr, hc, h3⟩
    · rw [if_neg hx]
      obtain ⟨h1, h2, h3⟩ := ih a
      refine ⟨h1, ?_, ?_⟩
      · intro r hr hc
        rcases List.mem_cons.1 hr with rfl | hr
        · exact absurd hc hx
        · exact h2 r hr hc
      · rcases h3 with h3 | ⟨r, hr, hc, h3⟩
        · exact Or.inl h3
        · exact Or.inr ⟨r, List.mem_cons_of_mem _ hr, hc, h3⟩

theorem mem_requestsFor_info {r : RB} {q : ℕ} : r ∈ requestsFor (indexed info) q ↔
    info[r.task]? = some r.info ∧ r.info.requests[r.idx]? = some r.req ∧ r.req.resId = q := by
  unfold requestsFor
  rw [List.mem_filter, List.mem_flatMap]
  simp only [decide_eq_true_eq]
  constructor
  · rintro ⟨⟨t, ht, hr⟩, hq⟩
    obtain ⟨h1, h2, h3⟩ := mem_pointers.1 hr
    have := mem_indexed.1 ht
    rw [h1, h2]
    exact ⟨this, h3, hq⟩
  · rintro ⟨h1, h2, hq⟩
    exact ⟨⟨(r.task, r.info), mem_indexed.2 h1, mem_pointers.2 ⟨rfl, rfl, h2⟩⟩, hq⟩

theorem ceilingAt_eq (i : Fin info.length) {r : Request} (hr : r ∈ (info.get i).requests) {c : ℕ}
    (hc : c < (splitByCluster info).length) :
    ceilingAt (mpcpCeilings info) c r.resId = (requestsFor (indexed info) r.resId).foldl (fun ceiling req =>
      if req.info.cluster ≠ c then min ceiling req.info.priority else ceiling) uintMax := by
  have e : requests info = splitByResource (indexed info) := rfl
  have hg := getD_splitByResource (indexed info) r.resId
  obtain ⟨d, hd⟩ := List.getElem?_of_mem hr
  have hmem : (⟨i, info.get i, d, r⟩ : RB) ∈ requestsFor (indexed info) r.resId :=
    mem_requestsFor_info.2 ⟨fin_get? i, hd, rfl⟩
  have hlt : r.resId < (splitByResource (indexed info)).length := by
    by_contra hl
    rw [List.getD_eq_getElem?_getD, List.getElem?_eq_none (by omega)] at hg
    rw [← hg] at hmem
    simp at hmem
  unfold ceilingAt mpcpCeilings
  rw [List.getD_eq_getElem?_getD, List.getD_eq_getElem?_getD, List.getElem?_map, List.getElem?_range hc, Option.map_some,
    Option.getD_some, e]
  unfold determineCeilings
  rw [List.getElem?_map, ← hg, List.getD_eq_getElem?_getD, List.getElem?_eq_getElem hlt]
  rfl

/-- The ceilings respect the order of the specification. -/
theorem ceiling_le {i x : Fin info.length} {r r' : Request} (hr : r ∈ (info.get i).requests)
    (hr' : r' ∈ (info.get x).requests) (hx : (info.get x).cluster = (info.get i).cluster)
    (h : (system info).CeilingGe (fun i => (info.get i).priority) (info.get i).cluster r'.resId r.resId) :
    ceilingAt (mpcpCeilings info) (info.get x).cluster r'.resId ≤
      ceilingAt (mpcpCeilings info) (info.get i).cluster r.resId := by
  rw [hx, ceilingAt_eq x hr' (cluster_lt_split i), ceilingAt_eq i hr (cluster_lt_split i)]
  obtain ⟨a1, a2, _⟩ := foldMin (info.get i).cluster (requestsFor (indexed info) r'.resId) uintMax
  obtain ⟨_, _, b3⟩ := foldMin (info.get i).cluster (requestsFor (indexed info) r.resId) uintMax
  rcases b3 with b3 | ⟨rb, hrb, hc, b3⟩
  · rw [b3]; exact a1
  · rw [b3]
    obtain ⟨h1, h2, h3⟩ := mem_requestsFor_info.1 hrb
    obtain ⟨hlt, hget⟩ := List.getElem?_eq_some_iff.1 h1
    have hget' : info.get ⟨rb.task, hlt⟩ = rb.info := hget
    obtain ⟨y, hy1, hy2, hy3⟩ := h ⟨rb.task, hlt⟩ (by
        change (info.get ⟨rb.task, hlt⟩).cluster ≠ _
        rw [hget']; exact hc) (by
        refine ⟨⟨rb.req.resId, rb.req.num, rb.req.length⟩, ?_, h3⟩
        refine List.mem_of_getElem? (lock_req' (i := ⟨rb.task, hlt⟩) (d := rb.idx) ?_)
        rw [hget']; exact h2)
    beta_reduce at hy3
    rw [hget'] at hy3
    refine le_trans ?_ hy3
    obtain ⟨q, hq, hqr⟩ := hy2
    obtain ⟨d, hd⟩ := List.getElem?_of_mem hq
    obtain ⟨rq, hrq, rfl⟩ := lock_req hd
    exact a2 ⟨y, info.get y, d, rq⟩ (mem_requestsFor_info.2 ⟨fin_get? y, hrq, hqr⟩) hy1

/-! ### Times for which resources are held -/

theorem le_maxGcsLength {tsk : TaskInfo} {cs : List (List ℕ)} {p : ℕ} {r : Request} (hr : r ∈ tsk.requests)
    (hc : ceilingAt cs tsk.cluster r.resId ≤ p) : r.length ≤ maxGcsLength tsk cs p := by
  unfold maxGcsLength
  have mono : ∀ (l : List Request) (a : ℕ), a ≤ l.foldl (fun len r =>
      if ceilingAt cs tsk.cluster r.resId ≤ p then max len r.length else len) a := by
    intro l
    induction l with
    | nil => intro a; exact le_rfl
    | cons x l ih =>
      intro a
      rw [List.foldl_cons]
      refine le_trans ?_ (ih _)
      split_ifs <;> omega
  generalize 0 = a
  generalize tsk.requests = l at hr
  induction l generalizing a with
  | nil => simp at hr
  | cons x l ih =>
    rw [List.foldl_cons]
    rcases List.mem_cons.1 hr with rfl | hr
    · refine le_trans ?_ (mono l _)
      rw [if_pos hc]
      omega
    · exact ih _ hr

/-- The response time of a request, `mpcp.cpp:81-94`. -/
def resp (info : Info) (i : Fin info.length) (r : Request) : ℕ :=
  r.length + ∑ x ∈ Finset.univ.filter (fun x : Fin info.length => (info.get x).cluster = (info.get i).cluster ∧ x ≠ i),
    maxGcsLength (info.get x) (mpcpCeilings info) (ceilingAt (mpcpCeilings info) (info.get i).cluster r.resId)

theorem gcsResponseTimes_eq (i : Fin info.length) :
    gcsResponseTimes (i, info.get i) ((indexed info).filter (fun t => t.2.cluster = (info.get i).cluster))
      (mpcpCeilings info) = (info.get i).requests.map (resp info i) := by
  unfold gcsResponseTimes
  apply List.map_congr_left
  intro r _
  have : ∀ (l : List (ℕ × TaskInfo)) (a p : ℕ), l.foldl (fun resp t =>
      if t.1 ≠ (i : ℕ) then resp + maxGcsLength t.2 (mpcpCeilings info) p else resp) a =
      a + (l.map (fun t => if t.1 ≠ (i : ℕ) then maxGcsLength t.2 (mpcpCeilings info) p else 0)).sum := by
    intro l
    induction l with
    | nil => intro a p; simp
    | cons x l ih =>
      intro a p
      rw [List.foldl_cons, ih, List.map_cons, List.sum_cons]
      split_ifs <;> omega
  rw [this, cluster_sum]
  unfold resp
  congr 1
  rw [← Finset.filter_filter, Finset.sum_filter (p := fun x => x ≠ i)]
  apply Finset.sum_congr rfl
  intro x _
  by_cases hx : x = i
  · rw [if_neg (by simp [hx]), if_neg (by simp [hx])]
  · rw [if_pos (fun hh => hx (Fin.ext hh)), if_pos hx]

theorem getD_clusterTimes (info : Info) (c : ℕ) : (clusterTimes info).getD c [] =
    ((indexed info).filter (fun t => t.2.cluster = c)).map (fun t => (t, gcsResponseTimes t
      ((indexed info).filter (fun t => t.2.cluster = c)) (mpcpCeilings info))) := by
  rw [← getD_splitByCluster]
  unfold clusterTimes
  rw [List.getD_eq_getElem?_getD, List.getD_eq_getElem?_getD, List.getElem?_map]
  cases (splitByCluster info)[c]? <;> rfl

theorem responseTimeFor_eq {tsk : TaskInfo} {f : Request → ℕ} {q I : ℕ} {b : Bool} {r : Request}
    (hr : r ∈ tsk.requests) (hq : r.resId = q) (hn : (tsk.requests.map Request.resId).Nodup) :
    responseTimeFor q I tsk (tsk.requests.map f) b =
      if b then (Native.divideWithCeil I tsk.period + 1) * f r * r.num else f r := by
  unfold responseTimeFor
  have e : tsk.requests.zip (tsk.requests.map f) = tsk.requests.map (fun r => (r, f r)) := by
    apply List.ext_getElem
    · simp
    · intro i h1 h2; simp
  have hfind : (tsk.requests.zip (tsk.requests.map f)).find? (fun r => decide (r.1.resId = q)) = some (r, f r) := by
    rw [e, List.find?_map]
    have : tsk.requests.find? ((fun r => decide (r.1.resId = q)) ∘ (fun r => (r, f r))) = some r := by
      clear e
      generalize tsk.requests = l at hr hn
      induction l with
      | nil => simp at hr
      | cons x l ih =>
        rw [List.find?_cons]
        rw [List.map_cons, List.nodup_cons] at hn
        rcases List.mem_cons.1 hr with rfl | hr
        · simp [hq]
        · have hx : x.resId ≠ q := by
            intro hh
            apply hn.1
            rw [hh, ← hq]
            exact List.mem_map_of_mem hr
          simp only [Function.comp_apply, hx, decide_false]
          exact ih hr hn.2
    rw [this]
    rfl
  rw [hfind]

/-! ### The delay of a request -/

/-- `response_time_for` for task `x`. -/
def respFor (info : Info) (q I : ℕ) (x : Fin info.length) (b : Bool) : ℕ :=
  responseTimeFor q I (info.get x) ((info.get x).requests.map (resp info x)) b

theorem remoteCluster_fold (q I : ℕ) (tsk : ℕ × TaskInfo) (l : List ((ℕ × TaskInfo) × List ℕ)) : ∀ acc : ℕ × ℕ,
    (remoteCluster q I tsk l acc).1 = acc.1 + (l.map (fun t => if t.1.1 ≠ tsk.1 ∧ t.1.2.priority < tsk.2.priority then
      responseTimeFor q I t.1.2 t.2 true else 0)).sum ∧
    acc.2 ≤ (remoteCluster q I tsk l acc).2 ∧
    (∀ t ∈ l, t.1.1 ≠ tsk.1 → ¬ t.1.2.priority < tsk.2.priority →
      responseTimeFor q I t.1.2 t.2 false ≤ (remoteCluster q I tsk l acc).2) := by
  unfold remoteCluster
  induction l with
  | nil => intro acc; simp
  | cons x l ih =>
    intro acc
    rw [List.foldl_cons]
    have h := ih (if x.1.1 ≠ tsk.1 then
      if x.1.2.priority < tsk.2.priority then
        (acc.1 + responseTimeFor q I x.1.2 x.2 true, acc.2)
      else (acc.1, max acc.2 (responseTimeFor q I x.1.2 x.2 false))
    else acc)
    obtain ⟨h1, h2, h3⟩ := h
    refine ⟨?_, ?_, ?_⟩
    · rw [h1, List.map_cons, List.sum_cons]
      by_cases c1 : x.1.1 ≠ tsk.1
      · by_cases c2 : x.1.2.priority < tsk.2.priority
        · rw [if_pos c1, if_pos c2, if_pos ⟨c1, c2⟩]; simp only; omega
        · rw [if_pos c1, if_neg c2, if_neg (fun h => c2 h.2)]; simp only; omega
      · rw [if_neg c1, if_neg (fun h => c1 h.1)]; omega
    · refine le_trans ?_ h2
      split_ifs <;> simp
    · intro t ht c1 c2
      rcases List.mem_cons.1 ht with rfl | ht
      · refine le_trans ?_ h2
        rw [if_pos c1, if_neg c2]
        simp
      · exact h3 t ht c1 c2

theorem remoteAll_flatten (q I : ℕ) (tsk : ℕ × TaskInfo) :
    remoteAll info q I tsk = remoteCluster q I tsk (clusterTimes info).flatten (0, 0) := by
  unfold remoteAll remoteCluster
  rw [List.foldl_flatten]

theorem flatten_sum {α : Type} (g : α → ℕ) (l : List (List α)) :
    (l.flatten.map g).sum = ∑ c ∈ Finset.range l.length, ((l.getD c []).map g).sum := by
  induction l with
  | nil => simp
  | cons a l ih =>
    rw [List.flatten_cons, List.map_append, List.sum_append, ih, List.length_cons, Finset.sum_range_succ']
    simp only [List.getD_cons_succ, List.getD_cons_zero]
    omega

/-- The blocking by higher-priority tasks. -/
theorem remoteAll_fst (q I : ℕ) (k : Fin info.length) :
    (remoteAll info q I (k, info.get k)).1 =
      ∑ x ∈ Finset.univ.filter (fun x : Fin info.length => (info.get x).priority < (info.get k).priority),
        respFor info q I x true := by
  rw [remoteAll_flatten, (remoteCluster_fold _ _ _ _ _).1, flatten_sum, Nat.zero_add]
  have hl : (clusterTimes info).length = (splitByCluster info).length := by unfold clusterTimes; simp
  rw [hl]
  have e := other_clusters_sum info (splitByCluster info).length (fun x =>
    if (info.get x).priority < (info.get k).priority then respFor info q I x true else 0)
  have e2 : Finset.univ.filter (fun x : Fin info.length => (info.get x).cluster ≠ (splitByCluster info).length) =
      Finset.univ := by
    apply Finset.filter_true_of_mem
    intro x _
    exact (cluster_lt_split x).ne
  rw [e2, ← Finset.sum_filter] at e
  rw [← e]
  apply Finset.sum_congr rfl
  intro c hc
  rw [if_neg (Finset.mem_range.1 hc).ne, getD_clusterTimes, List.map_map, cluster_sum]
  apply Finset.sum_congr rfl
  intro x hx
  have hx := (Finset.mem_filter.1 hx).2
  simp only [Function.comp_apply]
  by_cases hp : (info.get x).priority < (info.get k).priority
  · have hne : (x : ℕ) ≠ (k : ℕ) := by
      intro hh
      rw [Fin.ext hh] at hp
      omega
    rw [if_pos ⟨hne, hp⟩, if_pos hp, ← hx, gcsResponseTimes_eq]
    rfl
  · rw [if_neg (fun h => hp h.2), if_neg hp]

/-- The blocking by one lower-priority task. -/
theorem le_remoteAll_snd (q I : ℕ) (k x : Fin info.length) (hne : x ≠ k)
    (hp : ¬ (info.get x).priority < (info.get k).priority) :
    respFor info q I x false ≤ (remoteAll info q I (k, info.get k)).2 := by
  rw [remoteAll_flatten]
  have := (remoteCluster_fold q I (k, info.get k) (clusterTimes info).flatten (0, 0)).2.2
    ((x, info.get x), gcsResponseTimes (x, info.get x)
      ((indexed info).filter (fun t => t.2.cluster = (info.get x).cluster)) (mpcpCeilings info)) (by
      rw [List.mem_flatten]
      refine ⟨(clusterTimes info).getD (info.get x).cluster [], ?_, ?_⟩
      · have hlt : (info.get x).cluster < (clusterTimes info).length := by
          unfold clusterTimes
          rw [List.length_map]
          exact cluster_lt_split x
        rw [List.getD_eq_getElem?_getD, List.getElem?_eq_getElem hlt, Option.getD_some]
        exact List.getElem_mem hlt
      · rw [getD_clusterTimes]
        apply List.mem_map.2
        exact ⟨(x, info.get x), List.mem_filter.2 ⟨mem_indexed.2 (fin_get? x), by simp⟩, rfl⟩)
      (fun hh => hne (Fin.ext hh)) hp
  rw [gcsResponseTimes_eq] at this
  exact this

/-- A bound at which the loop ends. -/
def Fixed (info : Info) (q : ℕ) (k : Fin info.length) (B : ℕ) : Prop :=
  (remoteAll info q B (k, info.get k)).1 + (remoteAll info q B (k, info.get k)).2 = B

theorem remoteLoop_some {q : ℕ} {k : Fin info.length} {v : ℕ} : ∀ (fuel I : ℕ),
    remoteLoop info q (k, info.get k) fuel I = some v →
    v = unlimited ∨ (Fixed info q k v ∧ v ≤ max (info.get k).response (info.get k).period) := by
  intro fuel
  induction fuel with
  | zero => intro I h; simp [remoteLoop] at h
  | succ fuel ih =>
    intro I h
    rw [remoteLoop] at h
    simp only at h
    by_cases h1 : I > max (info.get k).response (info.get k).period
    · rw [if_pos h1] at h
      exact Or.inl (Option.some.inj h).symm
    · rw [if_neg h1] at h
      by_cases h2 : I ≠ (remoteAll info q I (k, info.get k)).1 + (remoteAll info q I (k, info.get k)).2
      · rw [if_pos h2] at h
        exact ih _ h
      · rw [if_neg h2] at h
        push Not at h2
        rw [← h2] at h
        obtain rfl := Option.some.inj h
        exact Or.inr ⟨h2.symm, by omega⟩

/-- The result for all requests of a task. -/
theorem remoteTask_some {k : Fin info.length} {fuel : ℕ}
    (hlim : max (info.get k).response (info.get k).period < unlimited) (rs : List Request) : ∀ (acc v : ℕ),
    remoteTask info fuel (k, info.get k) rs acc = some v →
    v = unlimited ∨ ∃ B : ℕ → ℕ, (∀ r ∈ rs, Fixed info r.resId k (B r.resId)) ∧
      v = acc + (rs.map (fun r => B r.resId * r.num)).sum := by
  have key : ∀ (rs : List Request) (acc v : ℕ), remoteTask info fuel (k, info.get k) rs acc = some v →
      v = unlimited ∨ ((∀ r ∈ rs, Fixed info r.resId k
        ((remoteLoop info r.resId (k, info.get k) fuel 1).getD 0)) ∧
      v = acc + (rs.map (fun r => (remoteLoop info r.resId (k, info.get k) fuel 1).getD 0 * r.num)).sum) := by
    intro rs
    induction rs with
    | nil =>
      intro acc v h
      rw [remoteTask] at h
      right
      simp [Option.some.inj h]
    | cons r rs ih =>
      intro acc v h
      rw [remoteTask] at h
      obtain ⟨b, hb, h⟩ := Option.bind_eq_some_iff.1 h
      simp only at h
      rcases remoteLoop_some _ _ hb with h1 | ⟨h1, h2⟩
      · left
        rw [h1, show unlimited % 4294967296 = unlimited from rfl, if_neg (by simp)] at h
        exact (Option.some.inj h).symm
      · have hmod : b % 4294967296 = b := by
          apply Nat.mod_eq_of_lt
          unfold unlimited at hlim
          omega
        rw [hmod, if_pos (by omega)] at h
        rcases ih _ _ h with h3 | ⟨h3, h4⟩
        · exact Or.inl h3
        · right
          constructor
          · intro r' hr'
            rcases List.mem_cons.1 hr' with rfl | hr'
            · rw [hb]; exact h1
            · exact h3 r' hr'
          · rw [h4, List.map_cons, List.sum_cons, hb, Option.getD_some]
            omega
  intro acc v h
  rcases key rs acc v h with h1 | ⟨h1, h2⟩
  · exact Or.inl h1
  · exact Or.inr ⟨fun q => (remoteLoop info q (k, info.get k) fuel 1).getD 0, h1, h2⟩

/-! ### Arrival blocking -/

theorem le_maxRequestLength {tsk : TaskInfo} {r : Request} (hr : r ∈ tsk.requests) : r.length ≤ maxRequestLength tsk := by
  unfold maxRequestLength
  have mono : ∀ (l : List Request) (a : ℕ), a ≤ l.foldl (fun len r => max len r.length) a := by
    intro l
    induction l with
    | nil => intro a; exact le_rfl
    | cons x l ih =>
      intro a
      rw [List.foldl_cons]
      exact le_trans (Nat.le_max_left _ _) (ih _)
  generalize 0 = a
  generalize tsk.requests = l at hr
  induction l generalizing a with
  | nil => simp at hr
  | cons x l ih =>
    rw [List.foldl_cons]
    rcases List.mem_cons.1 hr with rfl | hr
    · exact le_trans (Nat.le_max_right _ _) (mono l _)
    · exact ih _ hr

theorem numArrivals_eq (tsk : TaskInfo) : numArrivals tsk = (tsk.requests.map Request.num).sum + 1 := by
  unfold numArrivals
  have : ∀ (l : List Request) (a : ℕ), l.foldl (fun c r => c + r.num) a = a + (l.map Request.num).sum := by
    intro l
    induction l with
    | nil => intro a; simp
    | cons x l ih => intro a; rw [List.foldl_cons, ih, List.map_cons, List.sum_cons]; omega
  rw [this, Nat.zero_add]

theorem arrivalBlocking_eq (k : Fin info.length) (vs : Bool) :
    arrivalBlocking (k, info.get k) ((splitByCluster info).getD (info.get k).cluster []) vs =
      (∑ x ∈ Finset.univ.filter (fun x : Fin info.length => (info.get x).cluster = (info.get k).cluster ∧
        x ≠ k ∧ (info.get k).priority ≤ (info.get x).priority), maxRequestLength (info.get x)) *
      (if vs then 1 else numArrivals (info.get k)) := by
  unfold arrivalBlocking
  simp only
  have : ∀ (l : List (ℕ × TaskInfo)) (a : ℕ), l.foldl (fun b t =>
      if t.1 ≠ (k : ℕ) ∧ t.2.priority ≥ (info.get k).priority then b + maxRequestLength t.2 else b) a =
      a + (l.map (fun t => if t.1 ≠ (k : ℕ) ∧ t.2.priority ≥ (info.get k).priority then
        maxRequestLength t.2 else 0)).sum := by
    intro l
    induction l with
    | nil => intro a; simp
    | cons x l ih =>
      intro a
      rw [List.foldl_cons, ih, List.map_cons, List.sum_cons]
      split_ifs <;> omega
  rw [this, getD_splitByCluster, cluster_sum, Nat.zero_add]
  have e : ∑ x ∈ Finset.univ.filter (fun x : Fin info.length => (info.get x).cluster = (info.get k).cluster),
      (if (x : ℕ) ≠ (k : ℕ) ∧ (info.get x).priority ≥ (info.get k).priority then maxRequestLength (info.get x) else 0) =
      ∑ x ∈ Finset.univ.filter (fun x : Fin info.length => (info.get x).cluster = (info.get k).cluster ∧
        x ≠ k ∧ (info.get k).priority ≤ (info.get x).priority), maxRequestLength (info.get x) := by
    rw [← Finset.sum_filter, Finset.filter_filter]
    apply Finset.sum_congr _ (fun _ _ => rfl)
    ext x
    simp only [Finset.mem_filter, Finset.mem_univ, true_and, ge_iff_le, ne_eq, Fin.val_inj]
  simp only at e ⊢
  rw [e]
  cases vs <;> simp

end Verif.SR.Mpcp
