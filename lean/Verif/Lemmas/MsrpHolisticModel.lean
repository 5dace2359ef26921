import Verif.Lemmas.MsrpHolistic
import Verif.Lemmas.MsrpModel

/-! What the holistic MSRP analysis of the model computes. -/

namespace Verif.SR.Msrp
open Verif.Spec

/-! ### Local resources -/

/-- What is known after the accesses `l`, pairs of a cluster and a resource. -/
def LocalInv (l : List (ℕ × ℕ)) (st : LocalState) : Prop :=
  ∀ r, (st.accessed.lookup r = none → r ∉ st.locals ∧ ∀ c, (c, r) ∉ l) ∧
    ∀ c, st.accessed.lookup r = some c → (c, r) ∈ l ∧ (r ∈ st.locals ↔ ∀ c', (c', r) ∈ l → c' = c)

theorem localStep_inv {l : List (ℕ × ℕ)} {st : LocalState} (h : LocalInv l st) (c r : ℕ) :
    LocalInv (l ++ [(c, r)]) (localStep st c r) := by
  intro r'
  obtain ⟨h1, h2⟩ := h r'
  unfold localStep
  by_cases hr : r' = r
  · subst hr
    split
    · rename_i hn
      refine ⟨fun hc => by simp at hc, fun c' hc' => ?_⟩
      simp only [List.lookup_cons, beq_self_eq_true, Option.some.injEq] at hc'
      subst hc'
      refine ⟨by simp, fun _ c' hm => ?_, fun _ => by simp⟩
      rw [List.mem_append] at hm
      rcases hm with hm | hm
      · exact absurd hm ((h1 hn).2 c')
      · simp only [List.mem_singleton, Prod.mk.injEq] at hm
        exact hm.1
    · rename_i c0 hs
      obtain ⟨a1, a2⟩ := h2 c0 hs
      by_cases hcc : c0 ≠ c
      · rw [if_pos hcc]
        refine ⟨fun hc => (by simp only at hc; rw [hs] at hc; exact absurd hc (by simp)), fun c' hc' => ?_⟩
        simp only at hc'
        rw [hs] at hc'
        cases hc'
        refine ⟨List.mem_append_left _ a1, fun hm => ?_, fun hm => ?_⟩
        · simp at hm
        · exact absurd (hm c (by simp)).symm hcc
      · rw [if_neg hcc]
        push Not at hcc
        subst hcc
        refine ⟨fun hc => (by rw [hs] at hc; exact absurd hc (by simp)), fun c' hc' => ?_⟩
        rw [hs] at hc'
        cases hc'
        refine ⟨List.mem_append_left _ a1, a2.trans ⟨fun hm c' hc' => ?_, fun hm c' hc' => ?_⟩⟩
        · rw [List.mem_append] at hc'
          rcases hc' with hc' | hc'
          · exact hm c' hc'
          · simp only [List.mem_singleton, Prod.mk.injEq] at hc'
            exact hc'.1
        · exact hm c' (List.mem_append_left _ hc')
  · have hmem : ∀ c', (c', r') ∈ l ++ [(c, r)] ↔ (c', r') ∈ l := by
      intro c'
      simp [hr]
    simp only [hmem]
    split
    · have e : List.lookup r' ((r, c) :: st.accessed) = st.accessed.lookup r' := by
        rw [List.lookup_cons, show (r' == r) = false by simpa using hr]
      simp only [e]
      refine ⟨fun hc => ⟨?_, (h1 hc).2⟩, fun c' hc' => ⟨(h2 c' hc').1, ?_⟩⟩
      · rw [List.mem_cons]
        rintro (hc' | hc')
        · exact hr hc'
        · exact (h1 hc).1 hc'
      · rw [← (h2 c' hc').2, List.mem_cons]
        simp [hr]
    · split_ifs
      · simp only [List.mem_filter, ne_eq, decide_not, Bool.not_eq_eq_eq_not, Bool.not_true, decide_eq_false_iff_not]
        refine ⟨fun hc => ⟨fun hm => (h1 hc).1 hm.1, (h1 hc).2⟩, fun c' hc' => ⟨(h2 c' hc').1, ?_⟩⟩
        rw [← (h2 c' hc').2]
        simp [hr]
      · exact ⟨h1, h2⟩

theorem localReqs_inv (c : ℕ) (rs : List Request) : ∀ {l : List (ℕ × ℕ)} {st : LocalState}, LocalInv l st →
    LocalInv (l ++ rs.map (fun r => (c, r.resId))) (rs.foldl (fun st r => localStep st c r.resId) st) := by
  induction rs with
  | nil => intro l st h; simpa using h
  | cons r rs ih =>
    intro l st h
    have := ih (localStep_inv h c r.resId)
    simpa using this

theorem localTasks_inv (ts : Info) : ∀ {l : List (ℕ × ℕ)} {st : LocalState}, LocalInv l st →
    LocalInv (l ++ ts.flatMap (fun t => t.requests.map (fun r => (t.cluster, r.resId))))
      (ts.foldl (fun (st : LocalState) (t : TaskInfo) =>
        t.requests.foldl (fun st r => localStep st t.cluster r.resId) st) st) := by
  induction ts with
  | nil => intro l st h; simpa using h
  | cons t ts ih =>
    intro l st h
    have := ih (localReqs_inv t.cluster t.requests h)
    simpa using this

/-- The resources found local are those that are used and not global. -/
theorem mem_localResources {info : Info} {r : ℕ} {i : Fin info.length} (hu : (system info).Uses i r) :
    r ∈ localResources info ↔ ¬ (system info).Global r := by
  have h0 : LocalInv [] ({} : LocalState) := by
    intro r
    simp
  have h := localTasks_inv info h0 r
  rw [List.nil_append] at h
  have hm : ∀ c, (c, r) ∈ info.flatMap (fun t => t.requests.map (fun r => (t.cluster, r.resId))) ↔
      ∃ k, (system info).Uses k r ∧ (system info).proc k = c := by
    intro c
    simp only [List.mem_flatMap, List.mem_map, Prod.mk.injEq]
    constructor
    · rintro ⟨t, ht, q, hq, rfl, rfl⟩
      obtain ⟨k, rfl⟩ := List.get_of_mem ht
      exact ⟨k, uses_iff.2 ⟨q, hq, rfl⟩, rfl⟩
    · rintro ⟨k, hk, rfl⟩
      obtain ⟨q, hq, rfl⟩ := uses_iff.1 hk
      exact ⟨_, List.get_mem info k, q, hq, rfl, rfl⟩
  unfold localResources
  generalize List.foldl (fun (st : LocalState) (t : TaskInfo) =>
        t.requests.foldl (fun st r => localStep st t.cluster r.resId) st) {} info = st at h ⊢
  rcases hl : st.accessed.lookup r with _ | c
  · exact absurd ((hm _).2 ⟨i, hu, rfl⟩) ((h.1 hl).2 _)
  · obtain ⟨a1, a2⟩ := h.2 c hl
    rw [a2]
    constructor
    · rintro hall ⟨x, y, hx, hy, hne⟩
      exact hne ((hall _ ((hm _).2 ⟨x, hx, rfl⟩)).trans (hall _ ((hm _).2 ⟨y, hy, rfl⟩)).symm)
    · intro hg c' hc'
      obtain ⟨x, hx, rfl⟩ := (hm _).1 hc'
      obtain ⟨y, hy, rfl⟩ := (hm _).1 a1
      by_contra hne
      exact hg ⟨x, y, hx, hy, hne⟩

/-! ### Extracted resources -/

/-- What the bounds depend on. -/
def strip (r : RB) : RB :=
  ⟨r.task, { r.info with cost := 0, deadline := r.info.period, requests := [] }, 0, { r.req with isRead := false }⟩

theorem boundLoop_strip (interval per : ℕ) (ok : RB → Bool) (hok : ∀ r, ok (strip r) = ok r) (cont : List RB) :
    ∀ rem, boundLoop interval per ok rem (cont.map strip) = boundLoop interval per ok rem cont := by
  induction cont with
  | nil => intro rem; rfl
  | cons r cont ih =>
    intro rem
    rw [List.map_cons, boundLoop, boundLoop, hok]
    simp only [ih]
    rfl

theorem boundBlocking_strip (cont : List RB) (a b c d e : ℕ) :
    boundBlocking (cont.map strip) a b c d e = boundBlocking cont a b c d e :=
  boundLoop_strip _ _ _ (fun _ => rfl) _ _

/-- The tasks without what the bounds do not depend on. -/
def stripFor (q : ℕ) (t : ℕ × TaskInfo) : List RB :=
  (t.2.requests.filter (fun r => r.resId = q)).map (fun r =>
    ⟨t.1, { t.2 with cost := 0, deadline := t.2.period, requests := [] }, 0, { r with isRead := false }⟩)

theorem map_zipIdx_fst {α β : Type} (f : α → β) (l : List α) : ∀ k, (l.zipIdx k).map (fun x => f x.1) = l.map f := by
  induction l with
  | nil => intro k; rfl
  | cons a l ih => intro k; rw [List.zipIdx_cons, List.map_cons, List.map_cons, ih]

theorem strip_pointers (q : ℕ) (t : ℕ × TaskInfo) :
    ((pointers t).filter (fun r => r.req.resId = q)).map strip = stripFor q t := by
  unfold pointers stripFor
  rw [List.filter_map, List.map_map]
  have : ∀ (l : List Request) k, ((l.zipIdx k).filter
      ((fun r : RB => decide (r.req.resId = q)) ∘ fun r : Request × ℕ => (⟨t.1, t.2, r.2, r.1⟩ : RB))).map
        (strip ∘ fun r : Request × ℕ => (⟨t.1, t.2, r.2, r.1⟩ : RB)) =
      (l.filter (fun r => r.resId = q)).map (fun r =>
        (⟨t.1, { t.2 with cost := 0, deadline := t.2.period, requests := [] }, 0, { r with isRead := false }⟩ : RB)) := by
    intro l
    induction l with
    | nil => intro k; rfl
    | cons r l ih =>
      intro k
      rw [List.zipIdx_cons]
      by_cases hr : r.resId = q
      · rw [List.filter_cons_of_pos (by simpa using hr), List.filter_cons_of_pos (by simpa using hr),
          List.map_cons, List.map_cons, ih]
        rfl
      · rw [List.filter_cons_of_neg (by simpa using hr), List.filter_cons_of_neg (by simpa using hr), ih]
  exact this _ _

theorem strip_requestsFor (ts : List (ℕ × TaskInfo)) (q : ℕ) :
    (requestsFor ts q).map strip = ts.flatMap (stripFor q) := by
  unfold requestsFor
  induction ts with
  | nil => rfl
  | cons t ts ih =>
    rw [List.flatMap_cons, List.filter_append, List.map_append, strip_pointers, ih, List.flatMap_cons]

theorem strip_sort (l : List RB) : (sortByLength l).map strip = sortByLength (l.map strip) := by
  unfold sortByLength
  exact List.map_insertionSort _ _ _ _ (fun a _ b _ => Iff.rfl)

/-- A task with the extracted requests. -/
def extractTask (locals : List ℕ) (wantLocal : Bool) (t : TaskInfo) : TaskInfo := { t with
    cost := 0, deadline := t.period,
    requests := (t.requests.filter (fun r =>
      (decide (r.resId ∈ locals) && wantLocal) || (!decide (r.resId ∈ locals) && !wantLocal))).map
        (fun r => { r with isRead := false }) }

theorem extract_eq (info : Info) (locals : List ℕ) (w : Bool) :
    extract info locals w = info.map (extractTask locals w) := rfl

theorem indexed_map (info : Info) (f : TaskInfo → TaskInfo) :
    indexed (info.map f) = (indexed info).map (fun t => (t.1, f t.2)) := by
  unfold indexed
  rw [List.zipIdx_map, List.map_map, List.map_map]
  rfl

theorem stripFor_extract (locals : List ℕ) (w : Bool) (q : ℕ)
    (hq : ((decide (q ∈ locals) && w) || (!decide (q ∈ locals) && !w)) = true) (n : ℕ) (t : TaskInfo) :
    stripFor q (n, extractTask locals w t) = stripFor q (n, t) := by
  unfold stripFor extractTask
  simp only
  rw [List.filter_map, List.map_map, List.filter_filter]
  congr 1
  apply List.filter_congr
  intro r _
  simp only [Function.comp_apply]
  by_cases hr : r.resId = q
  · rw [hr, hq]; simp
  · simp [hr]

theorem length_addAt_eq {α β : Type} (x : α) (y : β) : ∀ (l : List (List α)) (l' : List (List β)) (i : ℕ),
    l.length = l'.length → (addAt l i x).length = (addAt l' i y).length := by
  intro l l' i
  induction i generalizing l l' with
  | zero =>
    intro h
    cases l <;> cases l' <;> simp_all [addAt]
  | succ i ih =>
    intro h
    cases l <;> cases l'
    · simp only [addAt, List.length_cons]
      rw [ih [] [] rfl]
    · simp at h
    · simp at h
    · simp only [addAt, List.length_cons] at h ⊢
      have := ih _ _ (Nat.succ.inj h)
      omega

theorem length_clusterResources_map (info : Info) (f : TaskInfo → TaskInfo) (hf : ∀ t, (f t).cluster = t.cluster) :
    (clusterResources (info.map f)).length = (clusterResources info).length := by
  unfold clusterResources splitByCluster
  rw [List.length_map, List.length_map, List.zipIdx_map, List.foldl_map]
  have : ∀ (l : List (TaskInfo × ℕ)) (a b : List (List (ℕ × TaskInfo))), a.length = b.length →
      (l.foldl (fun cs t => addAt cs (Prod.map f id t).1.cluster ((Prod.map f id t).2, (Prod.map f id t).1)) a).length =
      (l.foldl (fun cs t => addAt cs t.1.cluster (t.2, t.1)) b).length := by
    intro l
    induction l with
    | nil => intro a b h; exact h
    | cons t l ih =>
      intro a b h
      rw [List.foldl_cons, List.foldl_cons]
      apply ih
      have e : (Prod.map f id t).1.cluster = t.1.cluster := hf t.1
      rw [e]
      exact length_addAt_eq _ _ _ _ _ h
  exact this _ _ _ rfl

/-- The spinning of a request depends on the requests for the same resource only. -/
theorem npFifo_extract (info : Info) (locals : List ℕ) (w : Bool) (q : ℕ)
    (hq : ((decide (q ∈ locals) && w) || (!decide (q ∈ locals) && !w)) = true) (i : ℕ) (tsk : TaskInfo)
    (procs issued : ℕ) (irq : ℤ) :
    (npFifo i (extractTask locals w tsk) (clusterResources (extract info locals w)) procs q issued irq).total =
      (npFifo i tsk (clusterResources info) procs q issued irq).total := by
  unfold npFifo
  rw [npFifoLoop_total, npFifoLoop_total, extract_eq, length_clusterResources_map info (extractTask locals w) (fun _ => rfl)]
  apply Finset.sum_congr rfl
  intro c _
  rw [getD_clusterResources, getD_clusterResources, ← boundBlocking_strip, strip_sort, strip_requestsFor,
    ← boundBlocking_strip (sortByLength (requestsFor ((indexed info).filter _) q)), strip_sort, strip_requestsFor]
  have e : ((indexed (info.map (extractTask locals w))).filter (fun t => t.2.cluster = c)).flatMap (stripFor q) =
      ((indexed info).filter (fun t => t.2.cluster = c)).flatMap (stripFor q) := by
    rw [indexed_map, List.filter_map, List.flatMap_map]
    apply List.flatMap_congr
    intro t _
    exact stripFor_extract locals w q hq t.1 t.2
  rw [e]
  rfl

/-! ### Blocking due to local resources -/

theorem pcpReqs_ge (ceil : ℕ → ℕ) (p : ℕ) (rs : List Request) : ∀ acc : Interference,
    acc.total ≤ (rs.foldl (fun (acc : Interference) r =>
      if ceil r.resId ≤ p then acc.max ⟨1, r.length⟩ else acc) acc).total ∧
    ∀ r ∈ rs, ceil r.resId ≤ p → r.length ≤ (rs.foldl (fun (acc : Interference) r =>
      if ceil r.resId ≤ p then acc.max ⟨1, r.length⟩ else acc) acc).total := by
  induction rs with
  | nil => intro acc; simp
  | cons r rs ih =>
    intro acc
    rw [List.foldl_cons]
    obtain ⟨h1, h2⟩ := ih (if ceil r.resId ≤ p then acc.max ⟨1, r.length⟩ else acc)
    refine ⟨le_trans ?_ h1, ?_⟩
    · split_ifs
      · rw [max_total]; exact le_max_left _ _
      · exact le_rfl
    · intro r' hr' hc
      rw [List.mem_cons] at hr'
      rcases hr' with rfl | hr'
      · refine le_trans ?_ h1
        rw [if_pos hc, max_total]
        exact le_max_right _ _
      · exact h2 r' hr' hc

theorem pcpBlocking_ge (info : Info) (i : ℕ) (tsk : TaskInfo) {o : TaskInfo} {x : ℕ} (hx : info[x]? = some o)
    (hne : i ≠ x) (hcl : o.cluster = tsk.cluster) (hp : tsk.priority ≤ o.priority) {r : Request}
    (hr : r ∈ o.requests) (hc : ceilingOf info r.resId ≤ tsk.priority) :
    r.length ≤ (pcpBlocking info i tsk).total := by
  unfold pcpBlocking
  have : ∀ (l : List (TaskInfo × ℕ)) (acc : Interference), ∀ F : Interference,
      F = l.foldl (fun acc o =>
        if o.1.cluster = tsk.cluster then
          if i ≠ o.2 ∧ tsk.priority ≤ o.1.priority then
            o.1.requests.foldl (fun acc r =>
              if ceilingOf info r.resId ≤ tsk.priority then acc.max ⟨1, r.length⟩ else acc) acc
          else acc
        else acc) acc →
      acc.total ≤ F.total ∧ ((o, x) ∈ l → r.length ≤ F.total) := by
    intro l
    induction l with
    | nil => rintro acc F rfl; simp
    | cons y l ih =>
      rintro acc F hF
      rw [List.foldl_cons] at hF
      obtain ⟨h1, h2⟩ := ih _ F hF
      have hstep := pcpReqs_ge (ceilingOf info) tsk.priority y.1.requests acc
      refine ⟨le_trans ?_ h1, ?_⟩
      · split_ifs
        · exact hstep.1
        · exact le_rfl
        · exact le_rfl
      · rw [List.mem_cons]
        rintro (rfl | hm)
        · refine le_trans ?_ h1
          rw [if_pos hcl, if_pos ⟨hne, hp⟩]
          exact hstep.2 r hr hc
        · exact h2 hm
  exact (this info.zipIdx {} _ rfl).2 (List.mem_zipIdx_iff_getElem?.2 hx)

end Verif.SR.Msrp
