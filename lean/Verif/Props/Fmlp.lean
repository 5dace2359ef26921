/-
C97: response-time analysis of partitioned fixed-priority scheduling with the FMLP+.
-/
import Verif.Lemmas.FmlpCount
import Verif.Props.FpRta

namespace Verif.SR.Fmlp
open Spec
open Verif.SR.Msrp (system)

/-- What `apply_part_fmlp_bounds` makes of task `i`. -/
def after (info : Info) (i : Fin info.length) : Fp.FpTask :=
  { cost := ((info.get i).cost : ℚ), period := ((info.get i).period : ℚ), deadline := ((info.get i).deadline : ℚ),
    suspended := ((remoteBlocking info i (info.get i)).total : ℚ),
    blocked := some (((remoteBlocking info i (info.get i)).total + (localBlocking info i (info.get i)).total : ℕ) : ℚ) }

theorem afterFmlpBounds_eq (info : Info) (k : ℕ) : afterFmlpBounds info true k =
    ((List.finRange info.length).filter (fun i => (info.get i).cluster = k)).map (after info) := by
  have e : info.zip (fmlpBounds info true) = (List.finRange info.length).map
      (fun i => (info.get i, (⟨remoteBlocking info i (info.get i), localBlocking info i (info.get i)⟩ : Bounds))) := by
    unfold fmlpBounds
    apply List.ext_getElem
    · simp
    · intro i h1 h2
      simp
  unfold afterFmlpBounds
  rw [e, List.filterMap_map]
  induction (List.finRange info.length) with
  | nil => rfl
  | cons i l ih =>
    rw [List.filterMap_cons, List.filter_cons]
    simp only [Function.comp_apply]
    by_cases hc : (info.get i).cluster = k
    · simp only [hc, if_true, decide_true, List.map_cons]
      rw [← ih]
      rfl
    · simp only [hc, if_false, decide_false]
      exact ih

/-- What an accepted processor means. -/
theorem accepted (info : Info) (k fuel : ℕ) (hT : ∀ t ∈ info, 0 < t.period)
    (hprio : info.Pairwise (fun a b => a.cluster = b.cluster → a.priority < b.priority))
    (done : List (Fp.FpTask × ℚ))
    (h : Fp.boundResponseTimes fuel 1 (afterFmlpBounds info true k) = some (true, done)) :
    ∃ W : Fin info.length → ℕ,
      done.map Prod.snd = ((List.finRange info.length).filter (fun i => (info.get i).cluster = k)).map
        (fun i => (W i : ℚ)) ∧
      ∀ x, (info.get x).cluster = k → W x ≤ (info.get x).deadline ∧ W x ≤ (info.get x).period ∧
        (remoteBlocking info x (info.get x)).total + (localBlocking info x (info.get x)).total + (info.get x).cost +
          ∑ i ∈ Finset.univ.filter (fun i : Fin info.length => (info.get i).cluster = (info.get x).cluster ∧
              (info.get i).priority < (info.get x).priority),
            cdiv (W x + (if (remoteBlocking info i (info.get i)).total = 0 then 0 else W i - (info.get i).cost))
              (info.get i).period * (info.get i).cost ≤ W x := by
  classical
  set idx := (List.finRange info.length).filter (fun i => (info.get i).cluster = k) with hidx
  rw [afterFmlpBounds_eq] at h
  rw [← hidx] at h
  have hlen : (idx.map (after info)).length = idx.length := by simp
  let f : Fin (idx.map (after info)).length → Fin info.length := fun a => idx.get (a.cast hlen)
  have hget : ∀ a, (idx.map (after info)).get a = after info (f a) := by
    intro a
    simp [f]
  have hnodup : idx.Nodup := (List.nodup_finRange _).filter _
  have hf : Function.Injective f := by
    intro a b hab
    have := List.nodup_iff_injective_get.1 hnodup hab
    exact Fin.ext (by simpa using congrArg Fin.val this)
  have hmem : ∀ i, i ∈ idx ↔ (info.get i).cluster = k := by
    intro i
    rw [hidx]
    simp
  have hproc : ∀ i, (info.get i).cluster = k ↔ ∃ a, f a = i := by
    intro i
    rw [← hmem]
    constructor
    · intro hi
      obtain ⟨a, ha⟩ := List.get_of_mem hi
      exact ⟨a.cast hlen.symm, by rw [← ha]; rfl⟩
    · rintro ⟨a, rfl⟩
      exact List.get_mem _ _
  have hmono : StrictMono f := by
    have hs : idx.Pairwise (· < ·) := by
      rw [hidx]
      exact (List.sortedLT_finRange _).pairwise.filter _
    intro a b hab
    exact (List.pairwise_iff_get.1 hs) (a.cast hlen) (b.cast hlen) hab
  have hp1 : ∀ i j : Fin info.length, i < j → (info.get i).cluster = k → (info.get j).cluster = k →
      (info.get i).priority < (info.get j).priority := by
    intro i j hij h1 h2
    exact (List.pairwise_iff_get.1 hprio) i j hij (h1.trans h2.symm)
  have hfk : ∀ a, (info.get (f a)).cluster = k := fun a => (hproc (f a)).2 ⟨a, rfl⟩
  have hlt : ∀ a b, a < b ↔ (info.get (f a)).priority < (info.get (f b)).priority := by
    intro a b
    constructor
    · intro hab
      exact hp1 _ _ (hmono hab) (hfk a) (hfk b)
    · intro hab
      by_contra hle
      rcases (not_lt.1 hle).lt_or_eq with h1 | h1
      · have := hp1 _ _ (hmono h1) (hfk b) (hfk a)
        omega
      · rw [h1] at hab
        omega
  let p : FpParams (idx.map (after info)).length := ⟨fun a => (info.get (f a)).cost,
    fun a => (info.get (f a)).period, fun _ => 0, fun a => (remoteBlocking info (f a) (info.get (f a))).total,
    fun a => (localBlocking info (f a) (info.get (f a))).total⟩
  have hmat : Fp.Matches (idx.map (after info)) p := by
    refine ⟨fun a => by rw [hget]; rfl, fun a => by rw [hget]; rfl, fun a => by rw [hget]; simp [after, p],
      fun a => by rw [hget]; rfl, fun hno => ?_, fun _ a => ?_⟩
    · intro a
      have := hno a
      rw [hget] at this
      simp [after] at this
    · refine ⟨_, Or.inl (by rw [hget]; rfl), ?_⟩
      change (localBlocking info (f a) (info.get (f a))).total + (remoteBlocking info (f a) (info.get (f a))).total ≤ _
      omega
  obtain ⟨W, hdone, hW⟩ := Fp.accepted_bounds hmat (fun a => hT _ (List.get_mem info (f a))) h
  let W' : Fin info.length → ℕ := fun i => if hi : ∃ a, f a = i then W hi.choose else 0
  have hch : ∀ a, W' (f a) = W a := by
    intro a
    have hi : ∃ b, f b = f a := ⟨a, rfl⟩
    simp only [W']
    rw [dif_pos hi]
    exact congrArg W (hf hi.choose_spec)
  refine ⟨W', ?_, ?_⟩
  · rw [hdone]
    apply List.ext_getElem
    · simp
    · intro a h1 h2
      simp only [List.map_ofFn, List.getElem_ofFn, Function.comp_apply, List.getElem_map]
      rw [List.length_map, List.length_ofFn] at h1
      have := hch ⟨a, h1⟩
      have e : idx[a]'(by simpa using h1) = f ⟨a, h1⟩ := rfl
      rw [e, this]
      simp [p]
  · intro x hx
    obtain ⟨a, rfl⟩ := (hproc x).1 hx
    obtain ⟨w1, w2, w3⟩ := hW a
    rw [hch]
    refine ⟨?_, w2, ?_⟩
    · rw [hget] at w1
      have w1 : (W a : ℚ) ≤ ((info.get (f a)).deadline : ℚ) := w1
      exact_mod_cast w1
    · refine le_trans (le_of_eq ?_) w3
      have e : Finset.univ.filter (fun i : Fin info.length => (info.get i).cluster = (info.get (f a)).cluster ∧
              (info.get i).priority < (info.get (f a)).priority) = (Finset.univ.filter (· < a)).map ⟨f, hf⟩ := by
        ext i
        simp only [Finset.mem_filter, Finset.mem_univ, true_and, Finset.mem_map, Function.Embedding.coeFn_mk]
        constructor
        · rintro ⟨h1, h2⟩
          obtain ⟨b, rfl⟩ := (hproc i).1 (h1.trans (hfk a))
          exact ⟨b, (hlt b a).2 h2, rfl⟩
        · rintro ⟨b, hb, rfl⟩
          exact ⟨(hfk b).trans (hfk a).symm, (hlt b a).1 hb⟩
      rw [e, Finset.sum_map]
      have e2 : ∀ b, cdiv (W a + (if (remoteBlocking info (f b) (info.get (f b))).total = 0 then 0
          else W' (f b) - (info.get (f b)).cost)) (info.get (f b)).period * (info.get (f b)).cost =
          cdiv (W a + (if p.S b = 0 then p.J b else W b + p.J b - p.C b)) (p.T b) * p.C b := by
        intro b
        rw [hch]
        rfl
      simp only [Function.Embedding.coeFn_mk]
      rw [Finset.sum_congr rfl (fun b _ => e2 b)]
      change _ = (localBlocking info (f a) (info.get (f a))).total + ((info.get (f a)).cost +
        (remoteBlocking info (f a) (info.get (f a))).total) + _
      omega

/-- The blocking bounds and the response times of all processors imply each other. -/
theorem fixed_point_safe (info : Info) (hT : ∀ t ∈ info, 0 < t.period)
    (hunl : ∀ t ∈ info, totalNumRequests t < unlimited)
    (hprio : ∀ i k : Fin info.length, (info.get i).cluster = (info.get k).cluster →
      (info.get i).priority = (info.get k).priority → i = k)
    (W : Fin info.length → ℕ) (hW : ∀ i, W i ≤ (info.get i).response) (hWT : ∀ i, W i ≤ (info.get i).period)
    (hfix : ∀ x : Fin info.length, (remoteBlocking info x (info.get x)).total + (localBlocking info x (info.get x)).total +
      (info.get x).cost + ∑ i ∈ Finset.univ.filter (fun i : Fin info.length => (info.get i).cluster =
        (info.get x).cluster ∧ (info.get i).priority < (info.get x).priority),
        cdiv (W x + (if (remoteBlocking info i (info.get i)).total = 0 then 0 else W i - (info.get i).cost))
          (info.get i).period * (info.get i).cost ≤ W x)
    {ticket : Section info.length → ℕ} {R : LockRun info.length}
    (h : FmlpPlus (system info) (fun i => (info.get i).priority) ticket R) (H : ℕ) :
    BoundedBefore R.work R.sched W H := by
  classical
  induction H with
  | zero => intro j hj; omega
  | succ H ih =>
    rintro ⟨k, q0⟩ hj
    rcases Nat.lt_or_ge (R.work.release (k, q0) + W k) H with h1 | h1
    · exact ih (k, q0) h1
    have hH : R.work.release (k, q0) + W k = H := by
      simp only at hj
      omega
    have hC : ∀ i, (info.get i).cost ≤ W i := by
      intro i
      have := hfix i
      omega
    refine pfp_core h.sporadic h.valid (fun i => hT _ (List.get_mem info i)) k
      (Finset.univ.filter (fun i : Fin info.length => (info.get i).cluster = (info.get k).cluster ∧
        (info.get i).priority < (info.get k).priority))
      (fun i => (info.get i).cluster = (info.get k).cluster ∧ (info.get i).priority < (info.get k).priority ∧
        (remoteBlocking info i (info.get i)).total = 0) W (W k)
      ((remoteBlocking info k (info.get k)).total + (localBlocking info k (info.get k)).total) q0
      ?_ ?_ ?_ (hWT k) ?_
    · intro i _ _
      refine ⟨(hC i).trans (hWT i), hC i, fun q hq => ih (i, q) ?_⟩
      rw [hH] at hq
      exact hq
    · intro i hi
      exact Finset.mem_filter.2 ⟨Finset.mem_univ _, hi.1, hi.2.1⟩
    · refine le_trans (le_of_eq ?_) (hfix k)
      congr 1
      apply Finset.sum_congr rfl
      intro i hi
      obtain ⟨_, hi1, hi2⟩ := Finset.mem_filter.1 hi
      by_cases hh : (remoteBlocking info i (info.get i)).total = 0
      · rw [if_pos ⟨hi1, hi2, hh⟩, if_pos hh]
        rfl
      · rw [if_neg (fun h => hh h.2.2), if_neg hh]
        rfl
    · intro a q1 hwin hle
      rw [hH] at hle
      have := idle_le h ih hT hW hWT hunl (fun i h1 h2 => hprio i k h1 h2) (fun i hi => hi) hwin hle
      refine le_trans (le_of_eq ?_) this
      congr 1
      ext t
      simp only [Finset.mem_filter, Finset.mem_univ, true_and]

/-- **C97**: let the response-time analysis accept the tasks of each processor after
`apply_part_fmlp_bounds`, and let no computed response time exceed the one assumed in the computation of
the bounds.  Then in every run of partitioned fixed-priority scheduling with the FMLP+ no job takes
longer than the computed response time, which is at most the deadline.  The priorities on each
processor decrease in the order of the tasks. -/
theorem C97_pfp_fmlp_safe (info : Info) (fuel : ℕ) (hT : ∀ t ∈ info, 0 < t.period)
    (hunl : ∀ t ∈ info, (t.requests.map Request.num).sum < 4294967295)
    (hprio : info.Pairwise (fun a b => a.cluster = b.cluster → a.priority < b.priority))
    (done : ℕ → List (Fp.FpTask × ℚ))
    (h : ∀ t ∈ info, Fp.boundResponseTimes fuel 1 (afterFmlpBounds info true t.cluster) = some (true, done t.cluster)) :
    ∃ resp : Fin info.length → ℚ,
      (∀ t ∈ info, (done t.cluster).map Prod.snd =
        ((List.finRange info.length).filter (fun i => (info.get i).cluster = t.cluster)).map resp) ∧
      (∀ i, resp i ≤ (info.get i).deadline) ∧
      ((∀ i, resp i ≤ (info.get i).response) →
        ∀ ticket R, FmlpPlus (system info) (fun i => (info.get i).priority) ticket R → ∀ i (q t : ℕ),
          (R.work.release (i, q) : ℚ) + resp i ≤ t → Completed R.work R.sched (i, q) t) := by
  classical
  have hacc := fun t (ht : t ∈ info) => accepted info t.cluster fuel hT hprio (done t.cluster) (h t ht)
  have hacc' : ∀ i : Fin info.length, ∃ W : Fin info.length → ℕ, _ := fun i => hacc (info.get i) (List.get_mem info i)
  -- the functions of tasks on one processor agree
  choose Wf hWf using hacc'
  have hsame : ∀ i x : Fin info.length, (info.get x).cluster = (info.get i).cluster → Wf i x = Wf x x := by
    intro i x hx
    have h1 := (hWf i).1
    have h2 := (hWf x).1
    rw [hx] at h2
    rw [h2] at h1
    have := List.map_inj_left.1 h1 x (List.mem_filter.2 ⟨List.mem_finRange x, by simpa using hx⟩)
    exact_mod_cast this.symm
  let W : Fin info.length → ℕ := fun i => Wf i i
  refine ⟨fun i => (W i : ℚ), ?_, ?_, ?_⟩
  · intro t ht
    obtain ⟨i, rfl⟩ := List.get_of_mem ht
    rw [(hWf i).1]
    apply List.map_congr_left
    intro x hx
    have hx := (List.mem_filter.1 hx).2
    simp only [decide_eq_true_eq] at hx
    rw [hsame i x hx]
  · intro i
    have := ((hWf i).2 i rfl).1
    change ((W i : ℕ) : ℚ) ≤ _
    exact_mod_cast this
  · intro hresp ticket R hR i q t ht
    have hb := fixed_point_safe info hT (fun t ht => by rw [totalNum_eq]; exact hunl t ht)
      (by
        intro a b hc hp
        rcases lt_trichotomy a b with hab | hab | hab
        · have := (List.pairwise_iff_get.1 hprio) a b hab hc
          omega
        · exact hab
        · have := (List.pairwise_iff_get.1 hprio) b a hab hc.symm
          omega) W (fun i => by have : ((W i : ℕ) : ℚ) ≤ _ := hresp i; exact_mod_cast this) (fun i => ((hWf i).2 i rfl).2.1)
      (by
        intro x
        refine le_trans (le_of_eq ?_) ((hWf x).2 x rfl).2.2
        congr 1
        apply Finset.sum_congr rfl
        intro i hi
        obtain ⟨_, hi1, _⟩ := Finset.mem_filter.1 hi
        rw [hsame x i hi1]) hR (R.work.release (i, q) + W i + 1) (i, q) (Nat.lt_succ_self _)
    refine hb.mono ?_
    have : ((R.work.release (i, q) + W i : ℕ) : ℚ) ≤ t := by push_cast; exact ht
    exact_mod_cast this

/-- **C97**: in particular, if the blocking bounds assume that response times equal deadlines (or more), then no
deadline is missed. -/
theorem C97_pfp_fmlp_schedulable (info : Info) (fuel : ℕ) (hT : ∀ t ∈ info, 0 < t.period ∧ t.deadline ≤ t.response)
    (hunl : ∀ t ∈ info, (t.requests.map Request.num).sum < 4294967295)
    (hprio : info.Pairwise (fun a b => a.cluster = b.cluster → a.priority < b.priority))
    (h : ∀ t ∈ info, (Fp.boundResponseTimes fuel 1 (afterFmlpBounds info true t.cluster)).map Prod.fst = some true)
    (ticket : Section info.length → ℕ) (R : LockRun info.length)
    (hR : FmlpPlus (system info) (fun i => (info.get i).priority) ticket R) :
    MeetsDeadlines R.work (system info).deadline R.sched := by
  obtain ⟨resp, _, h2, h3⟩ := C97_pfp_fmlp_safe info fuel (fun t ht => (hT t ht).1) hunl hprio
    (fun k => ((Fp.boundResponseTimes fuel 1 (afterFmlpBounds info true k)).getD (true, [])).2) (by
      intro t ht
      have := h t ht
      rw [Option.map_eq_some_iff] at this
      obtain ⟨⟨b, l⟩, hb, rfl⟩ := this
      rw [hb]
      rfl)
  rintro ⟨i, q⟩
  refine h3 (fun i => (h2 i).trans ?_) ticket R hR i q _ ?_
  · exact_mod_cast (hT _ (List.get_mem info i)).2
  · have := h2 i
    change _ ≤ ((R.work.release (i, q) + (info.get i).deadline : ℕ) : ℚ)
    push_cast
    linarith

end Verif.SR.Fmlp
