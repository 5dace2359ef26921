/-
C99: response-time analysis of partitioned fixed-priority scheduling with the DPCP.
-/
import Verif.Lemmas.DpcpCount
import Verif.Lemmas.PartAccepted
import Verif.Props.Mpcp

namespace Verif.SR.Dpcp
open Spec
open Verif.SR.Msrp (system)
open Verif.SR.Mpcp (zipIdx_eq)

theorem afterDpcpBounds_eq (info : Info) (mapping : List (ℕ × ℕ)) (textBook : Bool) (k : ℕ) :
    afterDpcpBounds info mapping textBook k = partTasks (cppModel info textBook)
      (remOf (cppModel info textBook) (topology mapping)) (locOf (cppModel info textBook) (topology mapping)) k := by
  unfold afterDpcpBounds partTasks
  generalize cppModel info textBook = info'
  rw [zipIdx_eq, List.filterMap_map]
  induction (List.finRange info'.length) with
  | nil => rfl
  | cons i l ih =>
    rw [List.filterMap_cons, List.filter_cons]
    simp only [Function.comp_apply]
    by_cases hc : (info'.get i).cluster = k
    · simp only [hc, if_true, decide_true, List.map_cons]
      rw [← ih]
      rfl
    · simp only [hc, if_false, decide_false]
      exact ih

/-- The tasks as the native code sees them. -/
theorem model_safe (info : Info) (mapping : List (ℕ × ℕ)) (loc : ℕ → ℕ) (fuel : ℕ)
    (hT : ∀ t ∈ info, 0 < t.period) (hn : (mapping.map Prod.fst).Nodup)
    (hloc : ∀ t ∈ info, ∀ r ∈ t.requests, (r.resId, loc r.resId) ∈ mapping)
    (hprio : info.Pairwise (fun a b => a.cluster = b.cluster → a.priority < b.priority))
    (hdist : info.Pairwise (fun a b => a.priority ≠ b.priority))
    (done : ℕ → List (Fp.FpTask × ℚ))
    (h : ∀ t ∈ info, Fp.boundResponseTimes fuel 1 (partTasks info (remOf info (topology mapping))
      (locOf info (topology mapping)) t.cluster) = some (true, done t.cluster)) :
    ∃ W : Fin info.length → ℕ,
      (∀ t ∈ info, (done t.cluster).map Prod.snd =
        ((List.finRange info.length).filter (fun i => (info.get i).cluster = t.cluster)).map (fun i => (W i : ℚ))) ∧
      (∀ i, W i ≤ (info.get i).deadline ∧ W i ≤ (info.get i).period) ∧
      ((∀ i, W i ≤ (info.get i).response) →
        ∀ R, Spec.Dpcp (system info) (fun i => (info.get i).priority) loc R → ∀ j : Job info.length,
          Completed R.work R.sched j (R.work.release j + W j.1)) := by
  classical
  have hinj : Function.Injective (fun i : Fin info.length => (info.get i).priority) := by
    intro a b hab
    rcases lt_trichotomy a b with hlt | hlt | hlt
    · exact absurd hab ((List.pairwise_iff_get.1 hdist) a b hlt)
    · exact hlt
    · exact absurd hab.symm ((List.pairwise_iff_get.1 hdist) b a hlt)
  obtain ⟨W, hdone, hW, hsafe⟩ := part_fp_safe info _ _ fuel hT hprio done h
  refine ⟨W, hdone, fun i => ⟨(hW i).1, (hW i).2.1⟩, ?_⟩
  intro hresp R hR j
  exact hsafe _ R hR.toRequestRun (by
    intro H k q0 q1 a e hbb hwin he he'
    have := idle_le hR hbb hT hresp hinj (fun t ht r hr => topology_at hn (hloc t ht r hr))
      (fun i => (hW i).2.1)
      (fun i hi => ⟨(Finset.mem_filter.1 hi.1).2.1, (Finset.mem_filter.1 hi.1).2.2, hi.2⟩) hwin he he'
    refine le_trans (le_of_eq ?_) this
    congr 1
    ext t
    simp only [Finset.mem_filter, higher, Finset.mem_univ, true_and]) (R.work.release j + W j.1 + 1) j
    (Nat.lt_succ_self _)

/-- The same, for tasks that are given as functions. -/
theorem model_safe' (info : Info) (mapping : List (ℕ × ℕ)) (loc : ℕ → ℕ) (fuel : ℕ)
    (hT : ∀ t ∈ info, 0 < t.period) (hn : (mapping.map Prod.fst).Nodup)
    (hloc : ∀ t ∈ info, ∀ r ∈ t.requests, (r.resId, loc r.resId) ∈ mapping)
    (hprio : info.Pairwise (fun a b => a.cluster = b.cluster → a.priority < b.priority))
    (hdist : info.Pairwise (fun a b => a.priority ≠ b.priority))
    (done : ℕ → List (Fp.FpTask × ℚ))
    (h : ∀ t ∈ info, Fp.boundResponseTimes fuel 1 (partTasks info (remOf info (topology mapping))
      (locOf info (topology mapping)) t.cluster) = some (true, done t.cluster))
    (n : ℕ) (get : Fin n → TaskInfo) (hget : info = (List.finRange n).map get) :
    ∃ W : Fin n → ℕ,
      (∀ i, (done (get i).cluster).map Prod.snd =
        ((List.finRange n).filter (fun x => (get x).cluster = (get i).cluster)).map (fun i => (W i : ℚ))) ∧
      (∀ i, W i ≤ (get i).deadline ∧ W i ≤ (get i).period) ∧
      ((∀ i, W i ≤ (get i).response) → ∀ R, Spec.Dpcp ⟨fun i => (get i).cluster, fun i => (get i).cost,
          fun i => (get i).period, fun i => (get i).deadline,
          fun i => (get i).requests.map (fun r => ⟨r.resId, r.num, r.length⟩)⟩ (fun i => (get i).priority) loc R →
        ∀ j : Job n, Completed R.work R.sched j (R.work.release j + W j.1)) := by
  have hlen : n = info.length := by rw [hget]; simp
  subst hlen
  have e : get = info.get := by
    funext i
    have h1 : info[(i : ℕ)]? = some (get i) := by
      have := congrArg (fun l : Info => l[(i : ℕ)]?) hget
      simp only [List.getElem?_map] at this
      rw [this]
      simp
    rw [fin_get?] at h1
    exact (Option.some.inj h1).symm
  subst e
  obtain ⟨W, h1, h2, h3⟩ := model_safe info mapping loc fuel hT hn hloc hprio hdist done h
  exact ⟨W, fun i => h1 _ (List.get_mem info i), h2, h3⟩

/-- **C99**, for resources that are all assigned to processors: let the response-time analysis accept the tasks of
each processor after `apply_dpcp_bounds`, and, unless `use_text_book_definition` is set, let no computed response time
exceed the one assumed in the computation of the bounds.  Then in every run of partitioned fixed-priority scheduling
with the DPCP no job takes longer than the computed response time, which is at most the deadline.  The
priorities on each processor decrease in the order of the tasks, and no two tasks have the same priority. -/
theorem C99_dpcp_safe_partial (info : Info) (mapping : List (ℕ × ℕ)) (loc : ℕ → ℕ) (textBook : Bool) (fuel : ℕ)
    (hT : ∀ t ∈ info, 0 < t.period) (hn : (mapping.map Prod.fst).Nodup)
    (hloc : ∀ t ∈ info, ∀ r ∈ t.requests, (r.resId, loc r.resId) ∈ mapping)
    (hprio : info.Pairwise (fun a b => a.cluster = b.cluster → a.priority < b.priority))
    (hdist : info.Pairwise (fun a b => a.priority ≠ b.priority))
    (done : ℕ → List (Fp.FpTask × ℚ))
    (h : ∀ t ∈ info, Fp.boundResponseTimes fuel 1 (afterDpcpBounds info mapping textBook t.cluster) =
      some (true, done t.cluster)) :
    ∃ resp : Fin info.length → ℚ,
      (∀ t ∈ info, (done t.cluster).map Prod.snd =
        ((List.finRange info.length).filter (fun i => (info.get i).cluster = t.cluster)).map resp) ∧
      (∀ i, resp i ≤ (info.get i).deadline) ∧
      ((textBook = false → ∀ i, resp i ≤ (info.get i).response) →
        ∀ R, Spec.Dpcp (system info) (fun i => (info.get i).priority) loc R → ∀ i (q t : ℕ),
          (R.work.release (i, q) : ℚ) + resp i ≤ t → Completed R.work R.sched (i, q) t) := by
  let f : TaskInfo → TaskInfo := fun t => if textBook then { t with response := t.period } else t
  have e0 : cppModel info textBook = info.map f := rfl
  have f1 : ∀ t, (f t).priority = t.priority ∧ (f t).period = t.period ∧ (f t).deadline = t.deadline ∧
      (f t).cluster = t.cluster ∧ (f t).cost = t.cost ∧ (f t).requests = t.requests := by
    intro t
    simp only [f]
    split_ifs <;> simp
  have hmem : ∀ t ∈ info.map f, ∃ t0 ∈ info, t = f t0 := by
    intro t ht
    obtain ⟨t0, h0, rfl⟩ := List.mem_map.1 ht
    exact ⟨t0, h0, rfl⟩
  obtain ⟨W, hW1, hW2, hW3⟩ := model_safe' (cppModel info textBook) mapping loc fuel
    (by
      rw [e0]
      intro t ht
      obtain ⟨t0, h0, rfl⟩ := hmem t ht
      rw [(f1 t0).2.1]
      exact hT t0 h0) hn
    (by
      rw [e0]
      intro t ht r hr
      obtain ⟨t0, h0, rfl⟩ := hmem t ht
      rw [(f1 t0).2.2.2.2.2] at hr
      exact hloc t0 h0 r hr)
    (by
      rw [e0, List.pairwise_map]
      refine hprio.imp ?_
      intro a b hab
      rw [(f1 a).1, (f1 b).1, (f1 a).2.2.2.1, (f1 b).2.2.2.1]
      exact hab)
    (by
      rw [e0, List.pairwise_map]
      refine hdist.imp ?_
      intro a b hab
      rw [(f1 a).1, (f1 b).1]
      exact hab) done
    (by
      intro t ht
      rw [e0] at ht
      obtain ⟨t0, h0, rfl⟩ := hmem t ht
      have := h t0 h0
      rw [afterDpcpBounds_eq] at this
      rw [(f1 t0).2.2.2.1]
      exact this) info.length (fun i => f (info.get i)) (by
      rw [e0]
      apply List.ext_getElem
      · simp
      · intro i h1 h2
        simp)
  refine ⟨fun i => (W i : ℚ), ?_, ?_, ?_⟩
  · intro t ht
    obtain ⟨i, rfl⟩ := List.get_of_mem ht
    have := hW1 i
    simp only [(f1 _).2.2.2.1] at this
    exact this
  · intro i
    have := (hW2 i).1
    rw [(f1 _).2.2.1] at this
    beta_reduce
    exact_mod_cast this
  · intro hresp R hR i q t ht
    have := hW3 (by
      intro i
      simp only [f]
      cases textBook with
      | true =>
        rw [if_pos rfl]
        have := (hW2 i).2
        rw [(f1 _).2.1] at this
        exact this
      | false =>
        rw [if_neg (by simp)]
        have := hresp rfl i
        beta_reduce at this
        exact_mod_cast this) R (by
      have e1 : (⟨fun i => (f (info.get i)).cluster, fun i => (f (info.get i)).cost,
          fun i => (f (info.get i)).period, fun i => (f (info.get i)).deadline,
          fun i => (f (info.get i)).requests.map (fun r => ⟨r.resId, r.num, r.length⟩)⟩ : LockSystem info.length) =
          system info := by
        unfold system
        simp only [(f1 _).2.1, (f1 _).2.2.1, (f1 _).2.2.2.1, (f1 _).2.2.2.2.1, (f1 _).2.2.2.2.2]
      rw [e1]
      simp only [(f1 _).1]
      exact hR) (i, q)
    refine this.mono ?_
    have : ((R.work.release (i, q) + W i : ℕ) : ℚ) ≤ t := by push_cast; exact ht
    exact_mod_cast this

/-- **C99**: in particular, no deadline is missed. -/
theorem C99_dpcp_schedulable_partial (info : Info) (mapping : List (ℕ × ℕ)) (loc : ℕ → ℕ) (textBook : Bool) (fuel : ℕ)
    (hT : ∀ t ∈ info, 0 < t.period) (hn : (mapping.map Prod.fst).Nodup)
    (hloc : ∀ t ∈ info, ∀ r ∈ t.requests, (r.resId, loc r.resId) ∈ mapping)
    (hprio : info.Pairwise (fun a b => a.cluster = b.cluster → a.priority < b.priority))
    (hdist : info.Pairwise (fun a b => a.priority ≠ b.priority))
    (h : ∀ t ∈ info, (Fp.boundResponseTimes fuel 1 (afterDpcpBounds info mapping textBook t.cluster)).map Prod.fst =
      some true)
    (hD : textBook = false → ∀ t ∈ info, t.deadline ≤ t.response)
    (R : LockRun info.length) (hR : Spec.Dpcp (system info) (fun i => (info.get i).priority) loc R) :
    MeetsDeadlines R.work (system info).deadline R.sched := by
  obtain ⟨resp, _, h2, h3⟩ := C99_dpcp_safe_partial info mapping loc textBook fuel hT hn hloc hprio hdist
    (fun k => ((Fp.boundResponseTimes fuel 1 (afterDpcpBounds info mapping textBook k)).getD (true, [])).2) (by
      intro t ht
      have := h t ht
      rw [Option.map_eq_some_iff] at this
      obtain ⟨⟨b, l⟩, hb, rfl⟩ := this
      rw [hb]
      rfl)
  rintro ⟨i, q⟩
  refine h3 ?_ R hR i q _ ?_
  · intro hf i
    have a1 := h2 i
    have a2 := hD hf _ (List.get_mem info i)
    have a3 : ((info.get i).deadline : ℚ) ≤ ((info.get i).response : ℚ) := by exact_mod_cast a2
    exact a1.trans a3
  have := h2 i
  change _ ≤ ((R.work.release (i, q) + (info.get i).deadline : ℕ) : ℚ)
  push_cast
  linarith

end Verif.SR.Dpcp
