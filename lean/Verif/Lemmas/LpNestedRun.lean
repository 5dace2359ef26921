/-
The blocking in a run with FIFO spin locks and without nesting, counted for each critical section.
-/
import Verif.Lemmas.LpNested

namespace Verif.SR.Lp
open Verif.Spec Finset
open Verif.SR.Msrp (system uses_iff)
open Verif.Nested (CritSec TaskCs)

/-- The critical sections of tasks without nesting. -/
def unnested (info : Info) : List TaskCs :=
  info.map (fun t => t.requests.map (fun r => (⟨r.resId, r.length, none⟩ : CritSec)))

variable {info : Info} {R : LockRun info.length} {k : Fin info.length} {V : Finset ℕ}
  {sec src : ℕ → Section info.length} {arr : ℕ → Bool}
  {c : Option (Section info.length)} {W : Fin info.length → ℕ} {H a q : ℕ}

theorem csOf_get (x : Fin info.length) : csOf (unnested info) x =
    (info.get x).requests.map (fun r => (⟨r.resId, r.length, none⟩ : CritSec)) := by
  unfold csOf unnested
  rw [List.getD_eq_getElem?_getD, List.getElem?_map, fin_get?]
  rfl

theorem mem_unnested {s : TaskSec} : s ∈ taskSecs (unnested info) (tasks info) ↔
    ∃ (x : Fin info.length) (r : Request), s.1 = ((x : ℕ), info.get x) ∧ (info.get x).requests[s.2.2]? = some r ∧
      s.2.1 = ⟨r.resId, r.length, none⟩ := by
  rw [mem_taskSecs, mem_tasks]
  constructor
  · rintro ⟨⟨x, hx⟩, h⟩
    rw [hx] at h
    simp only at h
    rw [csOf_get, List.getElem?_map, Option.map_eq_some_iff] at h
    obtain ⟨r, h1, h2⟩ := h
    exact ⟨x, r, hx, h1, h2.symm⟩
  · rintro ⟨x, r, hx, h1, h2⟩
    refine ⟨⟨x, hx⟩, ?_⟩
    rw [hx]
    simp only
    rw [csOf_get, List.getElem?_map, h1, h2]
    rfl

theorem unnested_none {s : TaskSec} (h : s ∈ taskSecs (unnested info) (tasks info)) : s.2.1.outer = none := by
  obtain ⟨_, r, _, _, h⟩ := mem_unnested.1 h
  rw [h]

theorem mem_filter_taskSecs {css : List TaskCs} {p : ℕ × TaskInfo → Bool} {s : TaskSec} :
    s ∈ taskSecs css ((tasks info).filter p) ↔ s ∈ taskSecs css (tasks info) ∧ p s.1 = true := by
  rw [mem_taskSecs, mem_taskSecs, List.mem_filter]
  tauto

/-- Section `z` of a run is an occurrence of critical section `s`. -/
abbrev OnSec (s : TaskSec) (z : Section info.length) : Prop := (z.job.1 : ℕ) = s.1.1 ∧ z.idx = s.2.2

/-- The section of a task with lower priority. -/
def lowSet (c : Option (Section info.length)) : Finset (Section info.length) :=
  match c with
  | none => ∅
  | some c0 => {c0}

theorem mem_lowSet {z : Section info.length} : z ∈ lowSet c ↔ c = some z := by
  cases c with
  | none => simp [lowSet]
  | some c0 => simp [lowSet, eq_comm]

/-- How often a critical section blocks: the sections of other processors are those that are served, all requests of
tasks with high priority are counted, and at most one request of a task with low priority. -/
def nestCount (info : Info) (k : Fin info.length) (V : Finset ℕ) (sec : ℕ → Section info.length)
    (c : Option (Section info.length)) (x d : ℕ) : ℕ :=
  if hx : x < info.length then
    if (info.get ⟨x, hx⟩).cluster ≠ (info.get k).cluster then
      ((V.image sec).filter (fun z => (z.job.1 : ℕ) = x ∧ z.idx = d)).card
    else if (info.get ⟨x, hx⟩).priority ≤ (info.get k).priority then jobsToConsider (info.get k) (info.get ⟨x, hx⟩)
    else ((lowSet c).filter (fun z => (z.job.1 : ℕ) = x ∧ z.idx = d)).card
  else 0

theorem nestCount_remote {x : Fin info.length} {d : ℕ} (h : (info.get x).cluster ≠ (info.get k).cluster) :
    nestCount info k V sec c x d = ((V.image sec).filter (fun z => (z.job.1 : ℕ) = x ∧ z.idx = d)).card := by
  unfold nestCount
  rw [dif_pos x.2, if_pos h]

theorem nestCount_high {x : Fin info.length} {d : ℕ} (h : (info.get x).cluster = (info.get k).cluster)
    (hp : (info.get x).priority ≤ (info.get k).priority) :
    nestCount info k V sec c x d = jobsToConsider (info.get k) (info.get x) := by
  unfold nestCount
  rw [dif_pos x.2, if_neg (by simpa using h), if_pos hp]

theorem nestCount_low {x : Fin info.length} {d : ℕ} (h : (info.get x).cluster = (info.get k).cluster)
    (hp : (info.get k).priority < (info.get x).priority) :
    nestCount info k V sec c x d = ((lowSet c).filter (fun z => (z.job.1 : ℕ) = x ∧ z.idx = d)).card := by
  unfold nestCount
  rw [dif_pos x.2, if_neg (by simpa using h), if_neg (by
    have : (⟨(x : ℕ), x.2⟩ : Fin info.length) = x := rfl
    rw [this]
    omega)]

theorem lowSet_card : (lowSet c).card ≤ 1 := by
  cases c <;> simp [lowSet]

section
variable (h : NpSpinFp (system info) (prio info) R) (hb : BoundedBefore R.work R.sched W H)
  (hT : ∀ t ∈ info, 0 < t.period) (hW : ∀ i, W i ≤ (info.get i).response)
  (hprio : ∀ i j : Fin info.length, (info.get i).cluster = (info.get j).cluster →
    (info.get i).priority = (info.get j).priority → i = j)
  (hnum : ∀ t ∈ info, ∀ r ∈ t.requests, r.num = 1)
  (hwin : SpinWindow (system info) (prio info) R k q a (a + W k)) (haH : a + W k ≤ H)
  (hv : SpinView (system info) (prio info) R (fun s z => R.enter z ≤ R.enter s) k V sec src arr c)
  (hV : ∀ u ∈ V, a ≤ u ∧ u < a + W k)

include h hb hT hW hnum haH hv hV in
theorem nestCount_le : ∀ s ∈ taskSecs (unnested info) (tasks info),
    nestCount info k V sec c s.1.1 s.2.2 ≤ jobsToConsider (info.get k) s.1.2 := by
  intro s hs
  obtain ⟨x, r, hx, hr, _⟩ := mem_unnested.1 hs
  rw [hx]
  simp only
  by_cases hc : (info.get x).cluster = (info.get k).cluster
  · by_cases hp : (info.get x).priority ≤ (info.get k).priority
    · rw [nestCount_high hc hp]
    · push Not at hp
      rw [nestCount_low hc hp]
      unfold jobsToConsider
      rw [if_neg (by simpa using hc), if_neg (by omega)]
      exact (card_le_card (filter_subset _ _)).trans lowSet_card
  · rw [nestCount_remote hc]
    unfold jobsToConsider
    rw [if_pos hc]
    have := served_le h.toSpinBase hb hT hW hr haH (lo := a) (l := (info.get k).response) (by have := hW k; omega)
      (F := (V.image sec).filter (fun z => (z.job.1 : ℕ) = x ∧ z.idx = s.2.2)) (by
        intro z hz
        obtain ⟨hz, h1, h2⟩ := mem_filter.1 hz
        obtain ⟨u, hu, rfl⟩ := mem_image.1 hz
        exact ⟨Fin.ext h1, h2, u, (hV u hu).1, (hV u hu).2, hv.served u hu⟩)
    rwa [hnum _ (List.get_mem info x) r (List.mem_of_getElem? hr), Nat.mul_one] at this

include hv in
theorem nestCount_local : ∀ s ∈ taskSecs (unnested info) (localLowerEq info k (info.get k)),
    (∀ i j : Fin info.length, (info.get i).cluster = (info.get j).cluster →
      (info.get i).priority = (info.get j).priority → i = j) →
    isLocalLower info (unnested info) (info.get k) s.2.1.res → nestCount info k V sec c s.1.1 s.2.2 = 0 := by
  intro s hs hprio hl
  unfold localLowerEq at hs
  obtain ⟨hs, hp⟩ := mem_filter_taskSecs.1 hs
  obtain ⟨x, r, hx, hr, hcs⟩ := mem_unnested.1 hs
  have hp := of_decide_eq_true hp
  rw [hx] at hp ⊢
  simp only at hp ⊢
  have hlt : (info.get k).priority < (info.get x).priority := by
    rcases hp.2.2.lt_or_eq with h1 | h1
    · exact h1
    · exact absurd (congrArg Fin.val (hprio x k hp.1 h1.symm)) hp.2.1
  rw [nestCount_low hp.1 hlt, card_eq_zero, filter_eq_empty_iff]
  rintro z hz ⟨h1, h2⟩
  obtain ⟨_, _, _, b, hb, hconf⟩ := hv.source z (mem_lowSet.1 hz)
  obtain ⟨r', hr', rfl⟩ := lock_req hb
  have hzx : z.job.1 = x := Fin.ext h1
  rw [hzx, h2] at hr'
  cases hr.symm.trans hr'
  have hmem : ∀ y : Fin info.length, (system info).Uses y r.resId → info.get y ∈ accessing info (unnested info) r.resId := by
    intro y hy
    obtain ⟨e, he, her⟩ := uses_iff.1 hy
    unfold accessing
    refine List.mem_map.2 ⟨((y : ℕ), info.get y), List.mem_filter.2 ⟨mem_tasks.2 ⟨y, rfl⟩, ?_⟩, rfl⟩
    simp only
    rw [csOf_get, List.any_eq_true]
    exact ⟨_, List.mem_map.2 ⟨e, he, rfl⟩, by simpa using her⟩
  rw [hcs] at hl
  unfold isLocalLower at hl
  simp only [Bool.and_eq_true, decide_eq_true_eq] at hl
  obtain ⟨⟨_, hl1⟩, hl2⟩ := hl
  rcases hconf with ⟨i, j, hi, hj, hne⟩ | ⟨y, hy, hpy⟩
  · obtain ⟨e, he⟩ := List.length_eq_one_iff.1 hl1
    have key : ∀ y : Fin info.length, (system info).Uses y r.resId → (info.get y).cluster = e := by
      intro y hy
      have : (info.get y).cluster ∈ ((accessing info (unnested info) r.resId).map TaskInfo.cluster).dedup :=
        List.mem_dedup.2 (List.mem_map_of_mem (hmem y hy))
      rw [he] at this
      exact List.mem_singleton.1 this
    exact hne ((key i hi).trans (key j hj).symm)
  · have hm : (info.get y).priority ∈ (accessing info (unnested info) r.resId).map TaskInfo.priority :=
      List.mem_map_of_mem (hmem y hy)
    rcases hmin : ((accessing info (unnested info) r.resId).map TaskInfo.priority).min? with _ | m
    · rw [List.min?_eq_none_iff] at hmin
      rw [hmin] at hm
      simp at hm
    · rw [hmin, Option.getD_some] at hl2
      have := (List.min?_eq_some_iff.1 hmin).2 _ hm
      change (info.get y).priority ≤ (info.get k).priority at hpy
      omega

theorem onSec_pairwise {ts : List (ℕ × TaskInfo)} {css : List TaskCs} (hts : ts.Pairwise (fun a b => a.1 ≠ b.1))
    (p : TaskSec → Bool) :
    ((taskSecs css ts).filter p).Pairwise (fun s t => ∀ z : Section info.length, OnSec s z → ¬ OnSec t z) := by
  refine ((pairwise_taskSecs hts).filter p).imp ?_
  rintro s t hst z ⟨h1, h2⟩ ⟨h3, h4⟩
  rcases hst with h5 | h5
  · exact h5 (h1.symm.trans h3)
  · exact h5 (h2.symm.trans h4)

theorem nestCount_arrival (hprio : ∀ i j : Fin info.length, (info.get i).cluster = (info.get j).cluster →
      (info.get i).priority = (info.get j).priority → i = j) :
    ((taskSecs (unnested info) (localLowerEq info k (info.get k))).map
      (fun s => nestCount info k V sec c s.1.1 s.2.2)).sum ≤ 1 := by
  refine le_trans ?_ (lowSet_card (c := c))
  have := listSum_le_card (fun (s : TaskSec) (z : Section info.length) => OnSec s z)
    ((taskSecs (unnested info) (localLowerEq info k (info.get k))).filter (fun _ => true))
    (onSec_pairwise ((pairwise_tasks info).filter _) _) (lowSet c)
  rw [List.filter_true] at this
  refine le_trans (le_of_eq ?_) this
  congr 1
  apply List.map_congr_left
  intro s hs
  unfold localLowerEq at hs
  obtain ⟨hs, hp⟩ := mem_filter_taskSecs.1 hs
  obtain ⟨x, r, hx, hr, hcs⟩ := mem_unnested.1 hs
  have hp := of_decide_eq_true hp
  obtain ⟨st, scs, d⟩ := s
  simp only at hx
  subst hx
  simp only at hp ⊢
  have hlt : (info.get k).priority < (info.get x).priority := by
    rcases hp.2.2.lt_or_eq with h1 | h1
    · exact h1
    · exact absurd (congrArg Fin.val (hprio x k hp.1 h1.symm)) hp.2.1
  rw [nestCount_low hp.1 hlt]

/-- The critical section of a section. -/
theorem secOf (h : SpinBase (system info) R) {z : Section info.length} (hi : R.issued z) :
    ∃ r, (info.get z.job.1).requests[z.idx]? = some r ∧
      ((((z.job.1 : ℕ), info.get z.job.1), (⟨r.resId, r.length, none⟩ : CritSec), z.idx) : TaskSec) ∈
        taskSecs (unnested info) (tasks info) := by
  obtain ⟨b, hb, _⟩ := h.declared z hi
  obtain ⟨r, hr, rfl⟩ := lock_req hb
  exact ⟨r, hr, mem_unnested.2 ⟨z.job.1, r, rfl, hr, rfl⟩⟩

include h hT hW hprio hnum hwin hv hV in
/-- The sections of a local task that are to blame. -/
theorem sources_le {x : Fin info.length} {d : ℕ} (hcl : (info.get x).cluster = (info.get k).cluster)
    {G : Finset (Section info.length)}
    (hG : ∀ s ∈ G, s.job.1 = x ∧ s.idx = d ∧ R.issued s ∧
      (c = some s ∨ (info.get s.job.1).priority ≤ (info.get k).priority ∧
        ∃ u, a ≤ u ∧ u < a + W k ∧ s.job ∈ R.sched u)) :
    G.card ≤ nestCount info k V sec c x d := by
  by_cases hp : (info.get x).priority ≤ (info.get k).priority
  · rw [nestCount_high hcl hp]
    have hG' : ∀ s ∈ G, ∃ u, a ≤ u ∧ u < a + W k ∧ s.job ∈ R.sched u := by
      intro s hs
      obtain ⟨h1, h2, h3, h4 | h4⟩ := hG s hs
      · have := (hv.source s h4).2.2.1
        rw [h1] at this
        exact absurd (lt_of_lt_of_le this hp) (lt_irrefl _)
      · exact h4.2
    have hcard : G.card = (G.image (fun s => s.job.2)).card := by
      rw [card_image_of_injOn]
      intro s hs t ht hst
      obtain ⟨h1, h2, h3, _⟩ := hG s hs
      obtain ⟨h4, h5, h6, _⟩ := hG t ht
      have key : ∀ z : Section info.length, R.issued z → z.inst = 0 := by
        intro z hz
        obtain ⟨b, hb, hn⟩ := h.declared z hz
        obtain ⟨r, hr, rfl⟩ := lock_req hb
        rw [hnum _ (List.get_mem info _) r (List.mem_of_getElem? hr)] at hn
        simp only at hn
        omega
      have e1 := key s h3
      have e2 := key t h6
      obtain ⟨⟨sj, sp⟩, si, sn⟩ := s
      obtain ⟨⟨tj, tp⟩, ti, tn⟩ := t
      simp only at h1 h2 h4 h5 e1 e2 hst
      rw [h1, h2, h4, h5, e1, e2, hst]
    rw [hcard]
    unfold jobsToConsider
    rw [if_neg (by simpa using hcl)]
    split_ifs with hlt
    · apply window_jobs h hwin hT (hW k) hcl hp
      intro p hp'
      obtain ⟨s, hs, rfl⟩ := mem_image.1 hp'
      obtain ⟨u, h4, h5, h6⟩ := hG' s hs
      rw [← (hG s hs).1]
      exact ⟨u, h4, h5, h6⟩
    · have hxk : x = k := hprio x k hcl (by omega)
      rw [card_le_one]
      have hq : ∀ p ∈ G.image (fun s => s.job.2), p = q := by
        intro p hp'
        obtain ⟨s, hs, rfl⟩ := mem_image.1 hp'
        obtain ⟨u, h4, h5, h6⟩ := hG' s hs
        refine hwin.own u s.job.2 h4 h5 ?_
        rw [← hxk, ← (hG s hs).1]
        exact h.ready u _ h6
      intro y hy z hz
      rw [hq y hy, hq z hz]
  · push Not at hp
    rw [nestCount_low hcl hp]
    apply card_le_card
    intro s hs
    obtain ⟨h1, h2, h3, h4 | h4⟩ := hG s hs
    · exact mem_filter.2 ⟨mem_lowSet.2 h4, by rw [h1], h2⟩
    · rw [h1] at h4
      exact absurd (lt_of_lt_of_le hp h4.1) (lt_irrefl _)

include h hT hW hprio hnum hwin hv hV in
theorem nestCount_fifo (cl : ℕ) (hcl : cl ≠ (info.get k).cluster) (r : ℕ) :
    (((taskSecs (unnested info) ((tasks info).filter (fun t => t.2.cluster = cl))).filter (fun s => s.2.1.res = r)).map
      (fun s => nestCount info k V sec c s.1.1 s.2.2)).sum ≤
    (((taskSecs (unnested info) ((tasks info).filter (fun t => t.2.cluster = (info.get k).cluster))).filter
      (fun s => s.2.1.res = r)).map (fun s => nestCount info k V sec c s.1.1 s.2.2)).sum := by
  classical
  set F := (V.image sec).filter (fun z => (info.get z.job.1).cluster = cl ∧ (system info).For z r) with hF
  -- the left-hand side counts sections
  have h1 : (((taskSecs (unnested info) ((tasks info).filter (fun t => t.2.cluster = cl))).filter
      (fun s => s.2.1.res = r)).map (fun s => nestCount info k V sec c s.1.1 s.2.2)).sum ≤ F.card := by
    refine le_trans (List.sum_le_sum ?_) (listSum_le_card (fun (s : TaskSec) (z : Section info.length) => OnSec s z)
      ((taskSecs (unnested info) ((tasks info).filter (fun t => t.2.cluster = cl))).filter (fun s => s.2.1.res = r))
      (onSec_pairwise ((pairwise_tasks info).filter _) _) F)
    intro s hs
    obtain ⟨hs, hres⟩ := List.mem_filter.1 hs
    obtain ⟨hs, hc⟩ := mem_filter_taskSecs.1 hs
    obtain ⟨x, b, hx, hb, hcs⟩ := mem_unnested.1 hs
    obtain ⟨st, scs, d⟩ := s
    simp only at hx hcs hb
    subst hx hcs
    have hc := of_decide_eq_true hc
    have hres := of_decide_eq_true hres
    simp only at hc hres ⊢
    rw [nestCount_remote (by rw [hc]; exact hcl)]
    apply card_le_card
    intro z hz
    obtain ⟨hz, e1, e2⟩ := mem_filter.1 hz
    have e1' : z.job.1 = x := Fin.ext e1
    refine mem_filter.2 ⟨mem_filter.2 ⟨hz, by rw [e1']; exact hc, ?_⟩, e1, e2⟩
    rw [for_iff]
    refine ⟨b, ?_, hres⟩
    rw [e1', e2]
    exact hb
  refine h1.trans ?_
  -- each section is charged to a local section
  have hex : ∀ z ∈ F, ∃ s u, u ∈ V ∧ sec u = z ∧
      R.Blocks (system info) (fun s z => R.enter z ≤ R.enter s) s z u ∧ R.Served z u ∧
      (info.get s.job.1).cluster = (info.get k).cluster ∧
      (c = some s ∨ (info.get s.job.1).priority ≤ (info.get k).priority) := by
    intro z hz
    obtain ⟨hz, e1, e2⟩ := mem_filter.1 hz
    obtain ⟨u, hu, rfl⟩ := mem_image.1 hz
    cases ha : arr u
    · obtain ⟨x1, x2, x3⟩ := hv.direct u hu ha
      exact ⟨src u, u, hu, rfl, x1, hv.served u hu, x2, Or.inr x3⟩
    · obtain ⟨c0, hc0, x | x⟩ := hv.arrival u hu ha
      · have := (hv.source c0 hc0).2.1
        rw [← x] at this
        exact absurd (e1.symm.trans this) hcl
      · exact ⟨c0, u, hu, rfl, x, hv.served u hu, (hv.source c0 hc0).2.1, Or.inl hc0⟩
  haveI : Nonempty (Section info.length) := ⟨⟨(k, 0), 0, 0⟩⟩
  choose! g w hg using hex
  have hinj : Set.InjOn g F := by
    intro z hz z' hz' he
    obtain ⟨_, _, x1, x2, _⟩ := hg z hz
    obtain ⟨_, _, y1, y2, _⟩ := hg z' hz'
    rw [← he] at y1
    exact fifo_unique h.toSpinBase x1 y1 x2 y2 ((mem_filter.1 hz).2.1.trans (mem_filter.1 hz').2.1.symm)
  rw [← card_image_of_injOn hinj]
  have hGs : ∀ s ∈ F.image g, R.issued s ∧ (info.get s.job.1).cluster = (info.get k).cluster ∧ (system info).For s r ∧
      (c = some s ∨ (info.get s.job.1).priority ≤ (info.get k).priority ∧
        ∃ u, a ≤ u ∧ u < a + W k ∧ s.job ∈ R.sched u) := by
    intro s hs
    obtain ⟨z, hz, rfl⟩ := mem_image.1 hs
    obtain ⟨x1, x2, x3, x4, x5, x6⟩ := hg z hz
    refine ⟨x3.issued, x5, ?_, ?_⟩
    · obtain ⟨r', y1, y2, _⟩ := x3.res
      rw [← for_resOf (mem_filter.1 hz).2.2, for_resOf y2]
      exact y1
    · rcases x6 with x6 | x6
      · exact Or.inl x6
      · exact Or.inr ⟨x6, w z, (hV _ x1).1, (hV _ x1).2, x3.sched⟩
  refine (card_le_listSum (fun (s : TaskSec) (z : Section info.length) => OnSec s z)
    ((taskSecs (unnested info) ((tasks info).filter (fun t => t.2.cluster = (info.get k).cluster))).filter
      (fun s => s.2.1.res = r)) (F.image g) ?_).trans (List.sum_le_sum ?_)
  · intro s hs
    obtain ⟨x1, x2, x3, _⟩ := hGs s hs
    obtain ⟨b, hb, hmem⟩ := secOf h.toSpinBase x1
    refine ⟨_, List.mem_filter.2 ⟨mem_filter_taskSecs.2 ⟨hmem, by simpa using x2⟩, ?_⟩, rfl, rfl⟩
    obtain ⟨b', hb', hr'⟩ := for_iff.1 x3
    cases hb.symm.trans hb'
    simpa using hr'
  · intro s hs
    obtain ⟨hs, hres⟩ := List.mem_filter.1 hs
    obtain ⟨hs, hc⟩ := mem_filter_taskSecs.1 hs
    obtain ⟨x, b, hx, hb, hcs⟩ := mem_unnested.1 hs
    obtain ⟨st, scs, d⟩ := s
    simp only at hx hcs hb
    subst hx hcs
    have hc := of_decide_eq_true hc
    simp only at hc ⊢
    apply sources_le h hT hW hprio hnum hwin hv hV hc
    intro z hz
    obtain ⟨hz, e1, e2⟩ := mem_filter.1 hz
    obtain ⟨y1, _, _, y2⟩ := hGs z hz
    exact ⟨Fin.ext e1, e2, y1, y2⟩

include h hv in
theorem nestCount_objective : V.card ≤
    ((taskSecs (unnested info) ((tasks info).filter (fun t =>
      t.2.priority > (info.get k).priority ∨ t.2.cluster ≠ (info.get k).cluster))).map
        (fun s => s.2.1.len * nestCount info k V sec c s.1.1 s.2.2)).sum := by
  classical
  have hlocal : ∀ u ∈ V, (info.get (sec u).job.1).cluster = (info.get k).cluster → c = some (sec u) := by
    intro u hu hcl
    cases ha : arr u
    · obtain ⟨x1, x2, _⟩ := hv.direct u hu ha
      exact absurd (Eq.trans hcl x2.symm) x1.remote
    · obtain ⟨c0, hc0, x | x⟩ := hv.arrival u hu ha
      · rw [x, hc0]
      · exact absurd (Eq.trans hcl (hv.source c0 hc0).2.1.symm) x.remote
  refine (card_le_listSum (fun (s : TaskSec) (u : ℕ) => OnSec s (sec u))
    (taskSecs (unnested info) ((tasks info).filter (fun t =>
      t.2.priority > (info.get k).priority ∨ t.2.cluster ≠ (info.get k).cluster))) V ?_).trans (List.sum_le_sum ?_)
  · intro u hu
    obtain ⟨b, hb, hmem⟩ := secOf h.toSpinBase (hv.served u hu).issued
    refine ⟨_, mem_filter_taskSecs.2 ⟨hmem, ?_⟩, rfl, rfl⟩
    rw [decide_eq_true_eq]
    simp only
    by_cases hcl : (info.get (sec u).job.1).cluster = (info.get k).cluster
    · exact Or.inl (hv.source _ (hlocal u hu hcl)).2.2.1
    · exact Or.inr hcl
  · intro s hs
    obtain ⟨hs, hc⟩ := mem_filter_taskSecs.1 hs
    obtain ⟨x, b, hx, hb, hcs⟩ := mem_unnested.1 hs
    obtain ⟨st, scs, d⟩ := s
    simp only at hx hcs hb
    subst hx hcs
    have hc := of_decide_eq_true hc
    simp only at hc ⊢
    -- the slots of each section
    have hslots : ((V.filter (fun u => ((sec u).job.1 : ℕ) = x ∧ (sec u).idx = d))).card ≤
        b.length * ((V.image sec).filter (fun z => (z.job.1 : ℕ) = x ∧ z.idx = d)).card := by
      apply card_le_mul_card_image_of_maps_to (f := sec)
      · intro u hu
        obtain ⟨hu, e⟩ := mem_filter.1 hu
        exact mem_filter.2 ⟨mem_image_of_mem _ hu, e⟩
      · intro z hz
        obtain ⟨hz, e1, e2⟩ := mem_filter.1 hz
        obtain ⟨u0, hu0, rfl⟩ := mem_image.1 hz
        have e1' : (sec u0).job.1 = x := Fin.ext e1
        have hq : ((system info).reqs (sec u0).job.1)[(sec u0).idx]? = some ⟨b.resId, b.num, b.length⟩ := by
          rw [e1', e2]
          exact lock_req' hb
        have := h.length _ _ (hv.served u0 hu0).issued hq
        refine le_trans (card_le_card ?_) this
        intro v hvv
        obtain ⟨hvv, he⟩ := mem_filter.1 hvv
        have hs := hv.served v (mem_filter.1 hvv).1
        rw [he] at hs
        rw [mem_filter, mem_Ico]
        exact ⟨⟨hs.acquire, hs.leave⟩, hs.sched⟩
    refine hslots.trans (Nat.mul_le_mul_left _ ?_)
    by_cases hcl : (info.get x).cluster = (info.get k).cluster
    · have hlt : (info.get k).priority < (info.get x).priority := by
        rcases hc with hc | hc
        · exact hc
        · exact absurd hcl hc
      rw [nestCount_low hcl hlt]
      apply card_le_card
      intro z hz
      obtain ⟨hz, e1, e2⟩ := mem_filter.1 hz
      obtain ⟨u0, hu0, rfl⟩ := mem_image.1 hz
      refine mem_filter.2 ⟨mem_lowSet.2 (hlocal u0 hu0 ?_), e1, e2⟩
      rw [show (sec u0).job.1 = x from Fin.ext e1]
      exact hcl
    · rw [nestCount_remote hcl]

end

end Verif.SR.Lp
