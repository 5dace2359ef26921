/-
Lemmas on the model of the analysis of the FMLP+: sums over clusters and the numbers of requests.
-/
import Verif.Model.Fmlp
import Verif.Lemmas.PartLocks
import Mathlib.Algebra.Order.BigOperators.Group.Finset

namespace Verif.SR
open Verif.Spec
open Verif.SR.Msrp (system)
open Verif.SR.Rw (From events_rel boundLoop_count contention_cluster)

theorem foldl_add {α : Type} (f : α → Interference) (l : List α) : ∀ b : Interference,
    (l.foldl (fun b c => b.add (f c)) b).total = b.total + (l.map (fun c => (f c).total)).sum ∧
    (l.foldl (fun b c => b.add (f c)) b).count = b.count + (l.map (fun c => (f c).count)).sum := by
  induction l with
  | nil => intro b; simp
  | cons a l ih =>
    intro b
    simp only [List.foldl_cons, List.map_cons, List.sum_cons]
    rw [(ih _).1, (ih _).2]
    simp only [Interference.add]
    omega

theorem boundBlocking_zero (cont : List RB) (interval per i p : ℕ) :
    boundBlocking cont interval 0 per i p = ⟨0, 0⟩ := by
  unfold boundBlocking
  cases cont with
  | nil => rw [boundLoop]
  | cons r c => rw [boundLoop, if_pos rfl]

/-- The tasks of a cluster. -/
theorem cluster_sum (info : Info) (c : ℕ) (g : ℕ × TaskInfo → ℕ) :
    (((indexed info).filter (fun t => t.2.cluster = c)).map g).sum =
      ∑ x ∈ Finset.univ.filter (fun x : Fin info.length => (info.get x).cluster = c), g (x, info.get x) := by
  have e : indexed info = (List.finRange info.length).map (fun x : Fin info.length => ((x : ℕ), info.get x)) := by
    unfold indexed
    apply List.ext_getElem
    · simp
    · intro a h1 h2
      simp
  rw [e, List.filter_map, List.map_map, Finset.sum_filter, Fin.sum_univ_def]
  induction (List.finRange info.length) with
  | nil => simp
  | cons a l ih =>
    rw [List.filter_cons]
    by_cases h : (info.get a).cluster = c
    · simp only [Function.comp_apply, h, decide_true, if_true, List.map_cons, List.sum_cons]
      rw [← ih]
    · simp only [Function.comp_apply, h, decide_false, List.map_cons, List.sum_cons]
      rw [← ih]
      simp [h]

theorem cluster_lt_split {info : Info} (x : Fin info.length) : (info.get x).cluster < (splitByCluster info).length := by
  have := cluster_lt (fin_get? x)
  unfold clusterResources at this
  rwa [List.length_map] at this

/-- Sum over the tasks of all clusters but one. -/
theorem other_clusters_sum (info : Info) (cl : ℕ) (G : Fin info.length → ℕ) :
    ∑ c ∈ Finset.range (splitByCluster info).length,
      (if c = cl then 0 else ∑ x ∈ Finset.univ.filter (fun x : Fin info.length => (info.get x).cluster = c), G x) =
    ∑ x ∈ Finset.univ.filter (fun x : Fin info.length => (info.get x).cluster ≠ cl), G x := by
  rw [← Finset.sum_fiberwise_of_maps_to (t := Finset.range (splitByCluster info).length)
    (g := fun x : Fin info.length => (info.get x).cluster)
    (fun x _ => Finset.mem_range.2 (cluster_lt_split x))]
  apply Finset.sum_congr rfl
  intro c _
  rw [Finset.filter_filter]
  by_cases hc : c = cl
  · rw [if_pos hc]
    symm
    apply Finset.sum_eq_zero
    intro x hx
    obtain ⟨_, h1, h2⟩ := Finset.mem_filter.1 hx
    exact absurd (h2.trans hc) h1
  · rw [if_neg hc]
    congr 1
    ext x
    simp only [Finset.mem_filter, Finset.mem_univ, true_and]
    constructor
    · intro h; exact ⟨by rw [h]; exact hc, h⟩
    · rintro ⟨_, h⟩; exact h

namespace Fmlp

theorem remoteLoop_total (i : ℕ) (tsk : TaskInfo) (ic : List ℕ) (ct : List Interference) (cs : List (List (List RB))) :
    ∀ c, (remoteLoop i tsk ic ct c cs).total = ∑ k ∈ Finset.range cs.length,
      (if c + k = tsk.cluster then 0 else ((cs.getD k []).map (fun cont =>
        (boundBlocking cont tsk.response (min (ct.getD (c + k) {}).count (ic.getD (c + k) 0)) unlimited i).total)).sum) := by
  induction cs with
  | nil => intro c; simp [remoteLoop]
  | cons tasks rest ih =>
    intro c
    rw [List.length_cons, Finset.sum_range_succ', remoteLoop]
    have e : (remoteLoop i tsk ic ct (c + 1) rest).total = ∑ k ∈ Finset.range rest.length,
      (if c + (k + 1) = tsk.cluster then 0 else (((tasks :: rest).getD (k + 1) []).map (fun cont =>
        (boundBlocking cont tsk.response (min (ct.getD (c + (k + 1)) {}).count (ic.getD (c + (k + 1)) 0)) unlimited i).total)).sum) := by
      rw [ih (c + 1)]
      apply Finset.sum_congr rfl
      intro k _
      have : c + 1 + k = c + (k + 1) := by omega
      rw [this, List.getD_cons_succ]
    rw [← e]
    simp only [Nat.add_zero, List.getD_cons_zero]
    by_cases h1 : c = tsk.cluster
    · simp [h1]
    · by_cases h2 : min (ct.getD c {}).count (ic.getD c 0) = 0
      · rw [if_pos (Or.inr h2), if_neg h1, h2]
        simp [boundBlocking_zero]
      · rw [if_neg (by rintro (h | h) <;> contradiction), if_neg h1]
        have e2 := (foldl_add (fun cont => boundBlocking cont tsk.response
          (min (ct.getD c {}).count (ic.getD c 0)) unlimited i) tasks {}).1
        change Interference.total (List.foldl _ _ tasks) + _ = _
        rw [e2]
        simp only [Nat.zero_add]
        omega

variable {info : Info}

theorem getD_contention (info : Info) (c : ℕ) :
    (contention info).getD c [] = ((indexed info).filter (fun t => t.2.cluster = c)).map (fun t => sortByLength (pointers t)) := by
  rw [← getD_splitByCluster]
  unfold contention
  rw [List.getD_eq_getElem?_getD, List.getD_eq_getElem?_getD, List.getElem?_map]
  cases (splitByCluster info)[c]? <;> rfl

/-- `max_per_task`. -/
def perTask (info : Info) (i : Fin info.length) (c : ℕ) : ℕ :=
  min ((countDirect info i (info.get i)).getD c {}).count ((issuedCounts info (info.get i)).getD c 0)

theorem remote_total (i : Fin info.length) :
    (remoteBlocking info i (info.get i)).total =
      ∑ x ∈ Finset.univ.filter (fun x : Fin info.length => (info.get x).cluster ≠ (info.get i).cluster),
        (boundBlocking (sortByLength (pointers (x, info.get x))) (info.get i).response
          (perTask info i (info.get x).cluster) unlimited i).total := by
  unfold remoteBlocking
  rw [remoteLoop_total, ← other_clusters_sum]
  have hl : (contention info).length = (splitByCluster info).length := by unfold contention; simp
  rw [hl]
  apply Finset.sum_congr rfl
  intro c _
  rw [Nat.zero_add]
  by_cases hc : c = (info.get i).cluster
  · rw [if_pos hc, if_pos hc]
  · rw [if_neg hc, if_neg hc, getD_contention, List.map_map, cluster_sum]
    apply Finset.sum_congr rfl
    intro x hx
    rw [(Finset.mem_filter.1 hx).2]
    rfl

/-- `num_arrivals`. -/
def arrivals (info : Info) (i : Fin info.length) : ℕ :=
  min (totalNumRequests (info.get i) + 1) (((countDirect info i (info.get i)).map Interference.count).sum + 1)

theorem local_total (i : Fin info.length) :
    (localBlocking info i (info.get i)).total =
      ∑ x ∈ Finset.univ.filter (fun x : Fin info.length => (info.get x).cluster = (info.get i).cluster),
        (boundBlocking (sortByLength (pointers (x, info.get x))) (info.get i).response
          (arrivals info i) unlimited i (info.get i).priority).total := by
  unfold localBlocking
  simp only
  rw [(foldl_add (fun cont => boundBlocking cont (info.get i).response _ unlimited i (info.get i).priority) _ {}).1,
    getD_contention, List.map_map, cluster_sum]
  simp only [Nat.zero_add]
  apply Finset.sum_congr rfl
  intro x _
  simp only [Function.comp_apply]
  unfold arrivals
  have : ((countDirect info i (info.get i)).foldl Interference.add {}).count =
      ((countDirect info i (info.get i)).map Interference.count).sum := by
    have := (foldl_add id (countDirect info i (info.get i)) {}).2
    simp only [id, Nat.zero_add] at this
    exact this
  rw [this]

theorem getD_resources (info : Info) (c q : ℕ) : ((resources info).getD c []).getD q [] =
    requestsFor ((indexed info).filter (fun t => t.2.cluster = c)) q := by
  rw [← getD_splitByCluster, ← getD_splitByResource]
  unfold resources
  rw [List.getD_eq_getElem?_getD, List.getD_eq_getElem?_getD, List.getElem?_map, List.getD_eq_getElem?_getD,
    List.getD_eq_getElem?_getD]
  cases (splitByCluster info)[c]? <;> rfl

/-- The bound on the number of requests does not depend on the order of the set. -/
theorem count_perm {l l' : List RB} (h : l.Perm l') (interval total per i p : ℕ) :
    (boundBlocking l interval total per i p).count = (boundBlocking l' interval total per i p).count := by
  unfold boundBlocking
  rw [boundLoop_count, boundLoop_count, (h.map _).sum_eq]

theorem count_direct (i : Fin info.length) {c : ℕ} (hc : c < (splitByCluster info).length) :
    ((countDirect info i (info.get i)).getD c {}).count =
      ((info.get i).requests.map (fun req => (boundBlocking (((clusterResources info).getD c []).getD req.resId [])
        (info.get i).response unlimited req.num i).count)).sum := by
  unfold countDirect
  have hl : c < (resources info).length := by unfold resources; simpa using hc
  rw [List.getD_eq_getElem?_getD, List.getElem?_map, List.getElem?_eq_getElem hl, Option.map_some, Option.getD_some]
  have hget : (resources info)[c] = (resources info).getD c [] := by
    rw [List.getD_eq_getElem?_getD, List.getElem?_eq_getElem hl, Option.getD_some]
  rw [hget]
  have e : ∀ req : Request, ∀ cnt : Interference, (if ((resources info).getD c []).length > req.resId then
      cnt.add (boundBlocking (((resources info).getD c []).getD req.resId []) (info.get i).response unlimited req.num i)
      else cnt) = cnt.add (boundBlocking (((resources info).getD c []).getD req.resId []) (info.get i).response
        unlimited req.num i) := by
    intro req cnt
    split_ifs with h
    · rfl
    · have : ((resources info).getD c []).getD req.resId [] = [] := by
        rw [List.getD_eq_getElem?_getD (l := (resources info).getD c []), List.getElem?_eq_none (by omega)]
        rfl
      rw [this]
      simp [boundBlocking, boundLoop, Interference.add]
  simp only [e]
  rw [(foldl_add _ _ _).2]
  simp only [Nat.zero_add]
  congr 1
  apply List.map_congr_left
  intro req _
  apply count_perm
  rw [getD_resources, getD_clusterResources]
  exact (C39_sorted _).2.symm

theorem getD_addCount (l : List ℕ) : ∀ i x j, (addCount l i x).getD j 0 = l.getD j 0 + if j = i then x else 0 := by
  intro i
  induction i generalizing l with
  | zero =>
    intro x j
    cases l with
    | nil => cases j <;> simp [addCount]
    | cons c cs => cases j <;> simp [addCount]
  | succ i ih =>
    intro x j
    cases l with
    | nil =>
      cases j with
      | zero => simp [addCount]
      | succ j => simp only [addCount, List.getD_cons_succ, ih]; simp
    | cons c cs =>
      cases j with
      | zero => simp [addCount]
      | succ j => simp only [addCount, List.getD_cons_succ, ih]; simp

theorem accessCounts_pos {cs : List RB} {r : RB} (hr : r ∈ cs) (hn : 0 < r.req.num) :
    0 < (accessCounts cs).getD r.req.resId 0 := by
  unfold accessCounts
  have mono : ∀ (l : List RB) (a : List ℕ) (j : ℕ), a.getD j 0 ≤
      (l.foldl (fun counts r => addCount counts r.req.resId r.req.num) a).getD j 0 := by
    intro l
    induction l with
    | nil => intro a j; exact le_rfl
    | cons x l ih =>
      intro a j
      rw [List.foldl_cons]
      refine le_trans ?_ (ih _ j)
      rw [getD_addCount]
      omega
  generalize ([] : List ℕ) = a
  induction cs generalizing a with
  | nil => simp at hr
  | cons x l ih =>
    rw [List.foldl_cons]
    rcases List.mem_cons.1 hr with rfl | hr
    · refine lt_of_lt_of_le ?_ (mono l _ _)
      rw [getD_addCount, if_pos rfl]
      omega
    · exact ih hr _

/-- The number of requests of a task for resources that a cluster uses. -/
theorem issued_counts (i : Fin info.length) {c : ℕ} (hc : c < (splitByCluster info).length) :
    ∃ acc : ℕ → Bool, (issuedCounts info (info.get i)).getD c 0 =
        ((info.get i).requests.map (fun req => if acc req.resId then req.num else 0)).sum ∧
      ∀ x : Fin info.length, (info.get x).cluster = c → ∀ r ∈ (info.get x).requests, 0 < r.num → acc r.resId := by
  set ac := accessCounts (sortByLength (allFromCluster ((splitByCluster info).getD c []))) with hac
  refine ⟨fun q => decide (ac.length > q ∧ ac.getD q 0 > 0), ?_, ?_⟩
  · unfold issuedCounts
    have hget : (splitByCluster info)[c] = (splitByCluster info).getD c [] := by
      rw [List.getD_eq_getElem?_getD, List.getElem?_eq_getElem hc, Option.getD_some]
    rw [List.getD_eq_getElem?_getD, List.getElem?_map, List.getElem?_eq_getElem hc, Option.map_some, Option.getD_some,
      hget]
    unfold issuedFor
    rw [← hac]
    have : ∀ (l : List Request) (a : ℕ), l.foldl (fun count req =>
        if ac.length > req.resId ∧ ac.getD req.resId 0 > 0 then count + req.num else count) a =
        a + (l.map (fun req => if ac.length > req.resId ∧ ac.getD req.resId 0 > 0 then req.num else 0)).sum := by
      intro l
      induction l with
      | nil => intro a; simp
      | cons x l ih =>
        intro a
        rw [List.foldl_cons, ih, List.map_cons, List.sum_cons]
        split_ifs <;> omega
    rw [this, Nat.zero_add]
    congr 1
    apply List.map_congr_left
    intro req _
    apply if_congr (by simp) rfl rfl
  · intro x hx r hr hn
    obtain ⟨d, hd⟩ := List.getElem?_of_mem hr
    have hmem : (⟨x, info.get x, d, r⟩ : RB) ∈ sortByLength (allFromCluster ((splitByCluster info).getD c [])) := by
      rw [(C39_sorted _).2.mem_iff]
      unfold allFromCluster
      rw [List.mem_flatMap, getD_splitByCluster]
      exact ⟨(x, info.get x), List.mem_filter.2 ⟨mem_indexed.2 (fin_get? x), by simpa using hx⟩,
        mem_pointers.2 ⟨rfl, rfl, hd⟩⟩
    have h0 : 0 < ac.getD r.resId 0 := accessCounts_pos hmem hn
    refine decide_eq_true ⟨?_, h0⟩
    by_contra hl
    rw [List.getD_eq_getElem?_getD, List.getElem?_eq_none (by omega)] at h0
    simp at h0

end Fmlp
end Verif.SR
