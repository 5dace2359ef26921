/-
Lemmas on the model of the analyses of reader-writer locks: counting requests.
-/
import Verif.Lemmas.RwLock
import Verif.Model.RwLocks
import Verif.Props.SpinLocks

namespace Verif.SR.Rw
open Verif.Spec

/-- The tasks of the model as a system of the specification. -/
def system (info : Info) : RwSystem info.length where
  cluster i := (info.get i).cluster
  period i := (info.get i).period
  response i := (info.get i).response
  reqs i := (info.get i).requests.map (fun q => ⟨q.resId, q.num, q.length, q.isRead⟩)

variable {info : Info} {procs irqCpu : ℕ} {irq : ℤ} {R : RwRun info.length}

theorem system_req {s : Section info.length} {q : RwReq}
    (h : ((system info).reqs s.job.1)[s.idx]? = some q) :
    ∃ r, (info.get s.job.1).requests[s.idx]? = some r ∧ q = ⟨r.resId, r.num, r.length, r.isRead⟩ := by
  unfold system at h
  simp only [List.getElem?_map, Option.map_eq_some_iff] at h
  obtain ⟨r, h1, h2⟩ := h
  exact ⟨r, h1, h2.symm⟩

theorem get?_fin (i : Fin info.length) : info[(i : ℕ)]? = some (info.get i) := by
  simp

/-- Request `s` comes from the request object `r`. -/
def From (s : Section info.length) (r : RB) : Prop := (s.job.1 : ℕ) = r.task ∧ s.idx = r.idx

instance (s : Section info.length) (r : RB) : Decidable (From s r) := by unfold From; infer_instance

/-- Requests of one object in the interval in which a job is pending. -/
theorem from_card (hper : ∀ t ∈ info, 0 < t.period) (h : RwLegal procs irq irqCpu (system info) R)
    (j : Job info.length) {F : Finset (Section info.length)}
    (hF : ∀ s ∈ F, R.issued s ∧ ∃ x, R.Incomplete s x ∧ R.release j ≤ x ∧ x < R.finish j)
    {r : RB} (hr : info[r.task]? = some r.info) (hq : r.info.requests[r.idx]? = some r.req) :
    (F.filter (fun s => From s r)).card ≤ r.maxNumRequests (info.get j.1).response := by
  classical
  rcases (F.filter (fun s => From s r)).eq_empty_or_nonempty with he | ⟨s0, hs0⟩
  · rw [he]; simp
  obtain ⟨i, hi⟩ : ∃ i : Fin info.length, (i : ℕ) = r.task := ⟨s0.job.1, (Finset.mem_filter.mp hs0).2.1⟩
  have hinfo : info.get i = r.info := by
    have := get?_fin i
    rw [hi, hr] at this
    exact (Option.some.inj this).symm
  have htask : ∀ s ∈ F.filter (fun s => From s r), s.job = (i, s.job.2) ∧ s.idx = r.idx := by
    intro s hs
    have := (Finset.mem_filter.mp hs).2
    have h1 : s.job.1 = i := Fin.ext (this.1.trans hi.symm)
    exact ⟨by rw [← h1], this.2⟩
  let J := (F.filter (fun s => From s r)).image (fun s => s.job.2)
  have hJ : J.card ≤ r.info.maxNumJobs (info.get j.1).response := by
    have hp : 0 < r.info.period := hper _ (List.mem_of_getElem? hr)
    apply C40_jobs r.info hp (fun k => R.release (i, k)) (fun k => R.finish (i, k))
    · intro k
      have := h.separated i k
      change R.release (i, k) + (info.get i).period ≤ R.release (i, k + 1) at this
      rw [hinfo] at this
      exact this
    · intro k
      have := h.responds (i, k)
      change R.finish (i, k) ≤ R.release (i, k) + (info.get i).response at this
      rw [hinfo] at this
      exact this
    · intro k hk
      obtain ⟨s, hs, rfl⟩ := Finset.mem_image.mp hk
      obtain ⟨h1, x, h2, h3, h4⟩ := hF s (Finset.mem_filter.mp hs).1
      have hw := h.within s h1
      rw [(htask s hs).1] at hw
      obtain ⟨a, b⟩ := h2
      have hresp := h.responds j
      refine ⟨x, by omega, by omega, h3, ?_⟩
      change R.finish j ≤ R.release j + (info.get j.1).response at hresp
      omega
  have hcard : (F.filter (fun s => From s r)).card ≤ (J ×ˢ Finset.range r.req.num).card := by
    apply Finset.card_le_card_of_injOn (fun s => (s.job.2, s.inst))
    · intro s hs
      simp only [Finset.coe_product, Set.mem_prod, Finset.mem_coe, Finset.mem_range]
      refine ⟨Finset.mem_image_of_mem _ hs, ?_⟩
      obtain ⟨q, h1, h2⟩ := h.declared s (hF s (Finset.mem_filter.mp hs).1).1
      obtain ⟨q', h3, rfl⟩ := system_req h1
      obtain ⟨h4, h5⟩ := htask s hs
      have h6 : s.job.1 = i := by rw [h4]
      rw [h6, hinfo, h5, hq] at h3
      cases h3
      exact h2
    · intro a ha b hb hab
      simp only [Prod.mk.injEq] at hab
      obtain ⟨a1, a2⟩ := htask a ha
      obtain ⟨b1, b2⟩ := htask b hb
      obtain ⟨aj, ai, an⟩ := a
      obtain ⟨bj, bi, bn⟩ := b
      simp only at a1 a2 b1 b2 hab
      rw [a1, b1, a2, b2, hab.1, hab.2]
  rw [Finset.card_product, Finset.card_range] at hcard
  exact le_trans hcard (Nat.mul_le_mul_right _ hJ)

theorem boundLoop_count (interval per : ℕ) (ok : RB → Bool) (cont : List RB) : ∀ rem,
    (boundLoop interval per ok rem cont).count =
      min rem ((cont.map (fun r => if ok r then min (r.maxNumRequests interval) per else 0)).sum) := by
  induction cont with
  | nil => intro rem; simp [boundLoop]
  | cons r cont ih =>
    intro rem
    rw [boundLoop_step]
    simp only [Interference.add, List.map_cons, List.sum_cons]
    rw [ih]
    by_cases h : ok r = true
    · simp only [h, if_true]; omega
    · simp only [h]; simp

/-- A set of events is covered by the bound, if the limits are respected; `rel` says which object an event
comes from. -/
theorem events_rel {α : Type} [DecidableEq α] (rel : α → RB → Prop) [∀ r, DecidablePred (fun s => rel s r)]
    (len : α → ℕ) {cont : List RB} (hn : cont.Nodup) (hs : LongestFirst cont)
    {F : Finset α} {interval per total : ℕ} {ok : RB → Bool}
    (hk : ∀ s ∈ F, ∀ a ∈ cont, ∀ b ∈ cont, rel s a → rel s b → a = b)
    (hmem : ∀ s ∈ F, ∃ r ∈ cont, rel s r ∧ ok r = true)
    (hlen : ∀ s ∈ F, ∀ r ∈ cont, rel s r → len s ≤ r.req.length)
    (hx : ∀ r ∈ cont, (F.filter (fun s => rel s r)).card ≤ min (r.maxNumRequests interval) per)
    (ht : F.card ≤ total) :
    ∑ s ∈ F, len s ≤ (boundLoop interval per ok total cont).total ∧
    F.card ≤ (boundLoop interval per ok total cont).count := by
  classical
  have hsum : ∀ f : α → ℕ,
      (cont.map (fun r => ∑ s ∈ F.filter (fun s => rel s r), f s)).sum = ∑ s ∈ F, f s := by
    intro f
    rw [← List.sum_toFinset _ hn, ← Finset.sum_biUnion]
    · congr 1
      ext s
      simp only [Finset.mem_biUnion, List.mem_toFinset, Finset.mem_filter]
      constructor
      · rintro ⟨_, _, h, _⟩; exact h
      · intro hs
        obtain ⟨r, hr, h1, _⟩ := hmem s hs
        exact ⟨r, hr, hs, h1⟩
    · intro a ha b hb hab
      change Disjoint _ _
      simp only [Finset.disjoint_left, Finset.mem_filter]
      rintro e ⟨he, h1⟩ ⟨_, h3⟩
      exact hab (hk e he a (by simpa using ha) b (by simpa using hb) h1 h3)
  have hcard : (cont.map (fun r => (F.filter (fun s => rel s r)).card)).sum = F.card := by
    have := hsum (fun _ => 1)
    simpa using this
  have hcap : ∀ r ∈ cont, (F.filter (fun s => rel s r)).card ≤
      if ok r then min (r.maxNumRequests interval) per else 0 := by
    intro r hr
    by_cases hok : ok r = true
    · rw [if_pos hok]; exact hx r hr
    · rw [if_neg hok]
      rw [Nat.le_zero, Finset.card_eq_zero, Finset.filter_eq_empty_iff]
      intro s hs' hsr
      obtain ⟨r', hr', h1, h2⟩ := hmem s hs'
      have : r' = r := hk s hs' r' hr' r hr h1 hsr
      subst this
      exact hok h2
  constructor
  · have hsel := selection_le interval per total ok cont hs (fun r => (F.filter (fun s => rel s r)).card)
      (by rw [hcard]; exact ht) hcap
    refine le_trans ?_ hsel
    rw [← hsum]
    apply List.sum_le_sum
    intro r hr
    calc ∑ s ∈ F.filter (fun s => rel s r), len s
        ≤ ∑ s ∈ F.filter (fun s => rel s r), r.req.length := by
          apply Finset.sum_le_sum
          intro s hs'
          have hs' := Finset.mem_filter.mp hs'
          exact hlen s hs'.1 r hr hs'.2
      _ = _ := by simp
  · rw [boundLoop_count, le_min_iff]
    refine ⟨ht, ?_⟩
    rw [← hcard]
    exact List.sum_le_sum hcap

/-- A set of requests is covered by the bound, if the limits are respected. -/
theorem events_le {cont : List RB} (hn : cont.Nodup)
    (hs : LongestFirst cont)
    (hk : ∀ a ∈ cont, ∀ b ∈ cont, a.task = b.task → a.idx = b.idx → a = b)
    {F : Finset (Section info.length)} {interval per total : ℕ} {ok : RB → Bool}
    (hmem : ∀ s ∈ F, ∃ r ∈ cont, From s r ∧ ok r = true)
    (hlen : ∀ s ∈ F, ∀ r ∈ cont, From s r → R.leave s - R.acquire s ≤ r.req.length)
    (hx : ∀ r ∈ cont, (F.filter (fun s => From s r)).card ≤ min (r.maxNumRequests interval) per)
    (ht : F.card ≤ total) :
    ∑ s ∈ F, (R.leave s - R.acquire s) ≤ (boundLoop interval per ok total cont).total ∧
    F.card ≤ (boundLoop interval per ok total cont).count :=
  events_rel From (fun s => R.leave s - R.acquire s) hn hs
    (fun _ _ a ha b hb h1 h2 => hk a ha b hb (h1.1.symm.trans h2.1) (h1.2.symm.trans h2.2)) hmem hlen hx ht

/-! ### Contention sets -/

/-- What is needed of a contention set. -/
structure Contention (info : Info) (cont : List RB) (P : RB → Prop) : Prop where
  nodup : cont.Nodup
  sorted : LongestFirst cont
  mem : ∀ r, r ∈ cont ↔ info[r.task]? = some r.info ∧ r.info.requests[r.idx]? = some r.req ∧ P r

theorem Contention.inj {cont : List RB} {P : RB → Prop} (h : Contention info cont P) :
    ∀ a ∈ cont, ∀ b ∈ cont, a.task = b.task → a.idx = b.idx → a = b := by
  intro a ha b hb h1 h2
  have ha := (h.mem a).mp ha
  have hb := (h.mem b).mp hb
  have hi : a.info = b.info := by
    have := ha.1
    rw [h1, hb.1] at this
    exact (Option.some.inj this).symm
  have hr : a.req = b.req := by
    have := ha.2.1
    rw [hi, h2, hb.2.1] at this
    exact (Option.some.inj this).symm
  cases a; cases b; simp_all

/-- The request object behind a request. -/
theorem Contention.exists_from {cont : List RB} {P : RB → Prop} (h : Contention info cont P)
    {s : Section info.length} {q : RwReq} (hq : ((system info).reqs s.job.1)[s.idx]? = some q)
    (hP : ∀ r : Request, (info.get s.job.1).requests[s.idx]? = some r →
      P ⟨s.job.1, info.get s.job.1, s.idx, r⟩) : ∃ r ∈ cont, From s r := by
  obtain ⟨r, h1, _⟩ := system_req hq
  exact ⟨⟨s.job.1, info.get s.job.1, s.idx, r⟩, (h.mem _).mpr ⟨get?_fin _, h1, hP r h1⟩, rfl, rfl⟩

theorem Contention.from_eq {cont : List RB} {P : RB → Prop} (h : Contention info cont P)
    {s : Section info.length} {r : RB} (hr : r ∈ cont) (hs : From s r) :
    r.info = info.get s.job.1 ∧ (info.get s.job.1).requests[s.idx]? = some r.req := by
  have hr := (h.mem r).mp hr
  have hi : r.info = info.get s.job.1 := by
    have := hr.1
    rw [← hs.1, get?_fin] at this
    exact (Option.some.inj this).symm
  refine ⟨hi, ?_⟩
  rw [← hi, hs.2]
  exact hr.2.1

theorem Contention.length_le {cont : List RB} {P : RB → Prop} (h : Contention info cont P)
    (hl : RwLegal procs irq irqCpu (system info) R) {s : Section info.length} (hs : R.issued s)
    {r : RB} (hr : r ∈ cont) (hsr : From s r) : R.leave s - R.acquire s ≤ r.req.length := by
  obtain ⟨_, h2⟩ := h.from_eq hr hsr
  have : ((system info).reqs s.job.1)[s.idx]? = some ⟨r.req.resId, r.req.num, r.req.length, r.req.isRead⟩ := by
    unfold system
    simp only [List.getElem?_map, h2, Option.map_some]
  have := hl.length s _ hs this
  simp only at this
  omega

theorem LongestFirst.filter {cs : List RB} (h : LongestFirst cs) (p : RB → Bool) : LongestFirst (cs.filter p) :=
  List.Pairwise.filter p h

theorem contention_writes (info : Info) (c q : ℕ) : Contention info (((clusterWrites info).getD c []).getD q [])
    (fun r => r.info.cluster = c ∧ r.req.resId = q ∧ r.req.isRead = false) := by
  have e : ((clusterWrites info).getD c []).getD q [] =
      writesOf (sortByLength (requestsFor ((indexed info).filter (fun t => t.2.cluster = c)) q)) := by
    rw [← getD_clusterResources]
    unfold clusterWrites
    rw [List.getD_eq_getElem?_getD, List.getD_eq_getElem?_getD, List.getD_eq_getElem?_getD,
      List.getD_eq_getElem?_getD, List.getElem?_map]
    cases (clusterResources info)[c]? with
    | none => rfl
    | some l =>
      simp only [Option.map_some, Option.getD_some, List.getElem?_map]
      cases l[q]? <;> rfl
  rw [e]
  have hperm := (C39_sorted (requestsFor ((indexed info).filter (fun t => t.2.cluster = c)) q))
  refine ⟨?_, LongestFirst.filter hperm.1 _, ?_⟩
  · apply List.Nodup.filter
    rw [hperm.2.nodup_iff]
    exact nodup_requestsFor (((List.filter_sublist).map Prod.fst).nodup (nodup_indexed info)) q
  · intro r
    unfold writesOf
    rw [List.mem_filter, hperm.2.mem_iff, mem_requestsFor, List.mem_filter, mem_indexed]
    simp
    tauto

theorem contention_reads (info : Info) (q : ℕ) : Contention info ((allReads info).getD q [])
    (fun r => r.req.resId = q ∧ r.req.isRead = true) := by
  have e : (allReads info).getD q [] = sortByLength (readsOf (requestsFor (indexed info) q)) := by
    rw [← getD_splitByResource]
    unfold allReads indexed
    rw [List.getD_eq_getElem?_getD, List.getD_eq_getElem?_getD, List.getElem?_map]
    cases (splitByResource (info.zipIdx.map (fun t => (t.2, t.1))))[q]? <;> rfl
  rw [e]
  have hperm := (C39_sorted (readsOf (requestsFor (indexed info) q)))
  refine ⟨?_, hperm.1, ?_⟩
  · rw [hperm.2.nodup_iff]
    exact (nodup_requestsFor (nodup_indexed info) q).filter _
  · intro r
    rw [hperm.2.mem_iff]
    unfold readsOf
    rw [List.mem_filter, mem_requestsFor, mem_indexed]
    simp
    tauto

theorem contention_cluster (info : Info) (c q : ℕ) : Contention info (((clusterResources info).getD c []).getD q [])
    (fun r => r.info.cluster = c ∧ r.req.resId = q) := by
  rw [getD_clusterResources]
  have hperm := (C39_sorted (requestsFor ((indexed info).filter (fun t => t.2.cluster = c)) q))
  refine ⟨?_, hperm.1, ?_⟩
  · rw [hperm.2.nodup_iff]
    exact nodup_requestsFor (((List.filter_sublist).map Prod.fst).nodup (nodup_indexed info)) q
  · intro r
    rw [hperm.2.mem_iff, mem_requestsFor, List.mem_filter, mem_indexed]
    simp
    tauto

/-! ### All clusters -/

/-- The common form of the loops over the clusters. -/
def allClusters (i interval per res : ℕ) (lim : ℕ → ℕ) : ℕ → List (List (List RB)) → Interference
  | _, [] => ⟨0, 0⟩
  | idx, resources :: clusters =>
    let rest := allClusters i interval per res lim (idx + 1) clusters
    if resources.length > res then
      Interference.add (boundBlocking (resources.getD res []) interval (lim idx) per i) rest
    else rest

theorem npFifoLoop_eq (i : ℕ) (tsk : TaskInfo) (procs res issued : ℕ) (irq : ℤ)
    (cs : List (List (List RB))) : ∀ idx, npFifoLoop i tsk procs res issued irq idx cs =
      allClusters i tsk.response issued res (fun c => issued * parallelism tsk procs irq c) idx cs := by
  induction cs with
  | nil => intro idx; rfl
  | cons c cs ih => intro idx; rw [npFifoLoop, allClusters, ih]

theorem pfWriterLoop_eq (i : ℕ) (tsk : TaskInfo) (procs nw nr res : ℕ) (irq : ℤ)
    (cs : List (List (List RB))) : ∀ idx, pfWriterLoop i tsk procs nw nr res irq idx cs =
      allClusters i tsk.response (nr + nw) res (pfLimit tsk procs nw nr irq) idx cs := by
  induction cs with
  | nil => intro idx; rfl
  | cons c cs ih => intro idx; rw [pfWriterLoop, allClusters, ih]

theorem allClusters_eq (i interval per res : ℕ) (lim : ℕ → ℕ) (cs : List (List (List RB))) : ∀ idx,
    (allClusters i interval per res lim idx cs).total =
      ∑ k ∈ Finset.range cs.length, (boundBlocking ((cs.getD k []).getD res []) interval (lim (idx + k)) per i).total ∧
    (allClusters i interval per res lim idx cs).count =
      ∑ k ∈ Finset.range cs.length, (boundBlocking ((cs.getD k []).getD res []) interval (lim (idx + k)) per i).count := by
  induction cs with
  | nil => intro idx; simp [allClusters]
  | cons c cs ih =>
    intro idx
    have h0 : ¬ c.length > res → c.getD res [] = [] := by
      intro h
      rw [List.getD_eq_getElem?_getD, List.getElem?_eq_none (by omega)]; rfl
    obtain ⟨i1, i2⟩ := ih (idx + 1)
    rw [allClusters, List.length_cons, Finset.sum_range_succ', Finset.sum_range_succ']
    have e : ∀ k, idx + 1 + k = idx + (k + 1) := by intro k; omega
    simp only [e] at i1 i2
    simp only [List.getD_cons_succ, List.getD_cons_zero, Nat.add_zero]
    rw [← i1, ← i2]
    by_cases h : c.length > res
    · rw [if_pos h]; simp only [Interference.add]; omega
    · rw [if_neg h, h0 h, boundBlocking_nil]; simp

/-- A set of events is covered by the sum of the bounds for all clusters; `cl` is the cluster of an event. -/
theorem clusters_rel {α : Type} [DecidableEq α] (rel : α → RB → Prop) [∀ r, DecidablePred (fun s => rel s r)]
    (len cl : α → ℕ) {cs : List (List (List RB))} {q : ℕ}
    (hn : ∀ c, ((cs.getD c []).getD q []).Nodup) (hs : ∀ c, LongestFirst ((cs.getD c []).getD q []))
    {F : Finset α} {i interval per : ℕ} {lim : ℕ → ℕ}
    (hcl : ∀ s ∈ F, cl s < cs.length)
    (hk : ∀ s ∈ F, ∀ c, ∀ a ∈ (cs.getD c []).getD q [], ∀ b ∈ (cs.getD c []).getD q [], rel s a → rel s b → a = b)
    (hmem : ∀ s ∈ F, ∃ r ∈ (cs.getD (cl s) []).getD q [], rel s r ∧ r.task ≠ i)
    (hlen : ∀ s ∈ F, ∀ c, ∀ r ∈ (cs.getD c []).getD q [], rel s r → len s ≤ r.req.length)
    (hx : ∀ c, ∀ r ∈ (cs.getD c []).getD q [],
      (F.filter (fun s => rel s r)).card ≤ min (r.maxNumRequests interval) per)
    (ht : ∀ c, (F.filter (fun s => cl s = c)).card ≤ lim c) :
    ∑ s ∈ F, len s ≤ (allClusters i interval per q lim 0 cs).total ∧
    F.card ≤ (allClusters i interval per q lim 0 cs).count := by
  classical
  rw [(allClusters_eq i interval per q lim cs 0).1, (allClusters_eq i interval per q lim cs 0).2]
  have hcl : ∀ s ∈ F, cl s ∈ Finset.range cs.length :=
    fun s hs => Finset.mem_range.mpr (hcl s hs)
  have key : ∀ c, _ := fun c => events_rel rel len (hn c) (hs c)
    (F := F.filter (fun s => cl s = c)) (interval := interval) (per := per) (total := lim c)
    (ok := fun r => decide (r.task ≠ i) && decide (r.info.priority ≥ 0))
    (fun s hs => hk s (Finset.mem_filter.mp hs).1 c)
    (by
      intro s hs
      have hs := Finset.mem_filter.mp hs
      obtain ⟨r, h1, h2, h3⟩ := hmem s hs.1
      rw [hs.2] at h1
      exact ⟨r, h1, h2, by simp [h3]⟩)
    (fun s hs r hr hsr => hlen s (Finset.mem_filter.mp hs).1 c r hr hsr)
    (by
      intro r hr
      refine le_trans (Finset.card_le_card ?_) (hx c r hr)
      intro s hs
      have hs := Finset.mem_filter.mp hs
      exact Finset.mem_filter.mpr ⟨(Finset.mem_filter.mp hs.1).1, hs.2⟩)
    (ht c)
  constructor
  · rw [← Finset.sum_fiberwise_of_maps_to hcl]
    apply Finset.sum_le_sum
    intro c _
    rw [Nat.zero_add]
    exact (key c).1
  · rw [Finset.card_eq_sum_card_fiberwise hcl]
    apply Finset.sum_le_sum
    intro c _
    rw [Nat.zero_add]
    exact (key c).2

/-- A set of requests of other tasks is covered by the sum of the bounds for all clusters. -/
theorem clusters_le (h : RwLegal procs irq irqCpu (system info) R) {cs : List (List (List RB))} {q : ℕ}
    {P : ℕ → RB → Prop} (hcs : ∀ c, Contention info ((cs.getD c []).getD q []) (P c))
    (hlen : ∀ i : Fin info.length, (info.get i).cluster < cs.length)
    {F : Finset (Section info.length)} {i interval per : ℕ} {lim : ℕ → ℕ}
    (hi : ∀ s ∈ F, (s.job.1 : ℕ) ≠ i) (hiss : ∀ s ∈ F, R.issued s)
    (hmem : ∀ s ∈ F, ∃ r ∈ (cs.getD (info.get s.job.1).cluster []).getD q [], From s r)
    (hx : ∀ c, ∀ r ∈ (cs.getD c []).getD q [],
      (F.filter (fun s => From s r)).card ≤ min (r.maxNumRequests interval) per)
    (ht : ∀ c, (F.filter (fun s => (info.get s.job.1).cluster = c)).card ≤ lim c) :
    ∑ s ∈ F, (R.leave s - R.acquire s) ≤ (allClusters i interval per q lim 0 cs).total ∧
    F.card ≤ (allClusters i interval per q lim 0 cs).count :=
  clusters_rel From (fun s => R.leave s - R.acquire s) (fun s => (info.get s.job.1).cluster)
    (fun c => (hcs c).nodup) (fun c => (hcs c).sorted) (fun _ _ => hlen _)
    (fun _ _ c a ha b hb h1 h2 => (hcs c).inj a ha b hb (h1.1.symm.trans h2.1) (h1.2.symm.trans h2.2))
    (fun s hs => by
      obtain ⟨r, h1, h2⟩ := hmem s hs
      exact ⟨r, h1, h2, by rw [← h2.1]; exact hi s hs⟩)
    (fun s hs c r hr hsr => (hcs c).length_le h (hiss s hs) hr hsr) hx ht

end Verif.SR.Rw
