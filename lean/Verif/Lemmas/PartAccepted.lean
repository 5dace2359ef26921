/-
Response-time analysis of the processors of a partitioned system, given bounds on the delay of jobs
that wait for resources and on other blocking.
-/
import Verif.Lemmas.PartLocks
import Verif.Props.FpRta

namespace Verif.SR
open Spec
open Verif.SR.Msrp (system)

/-- Task `i` with bounds `rem` for the time in which its jobs are suspended, and `loc` for other blocking. -/
def partTask (info : Info) (rem loc : Fin info.length → ℕ) (i : Fin info.length) : Fp.FpTask :=
  { cost := ((info.get i).cost : ℚ), period := ((info.get i).period : ℚ), deadline := ((info.get i).deadline : ℚ),
    suspended := (rem i : ℚ), blocked := some ((rem i + loc i : ℕ) : ℚ) }

/-- The tasks of processor `k`. -/
def partTasks (info : Info) (rem loc : Fin info.length → ℕ) (k : ℕ) : List Fp.FpTask :=
  ((List.finRange info.length).filter (fun i => (info.get i).cluster = k)).map (partTask info rem loc)

/-- What an accepted processor means. -/
theorem part_accepted (info : Info) (rem loc : Fin info.length → ℕ) (k fuel : ℕ) (hT : ∀ t ∈ info, 0 < t.period)
    (hprio : info.Pairwise (fun a b => a.cluster = b.cluster → a.priority < b.priority))
    (done : List (Fp.FpTask × ℚ))
    (h : Fp.boundResponseTimes fuel 1 (partTasks info rem loc k) = some (true, done)) :
    ∃ W : Fin info.length → ℕ,
      done.map Prod.snd = ((List.finRange info.length).filter (fun i => (info.get i).cluster = k)).map
        (fun i => (W i : ℚ)) ∧
      ∀ x, (info.get x).cluster = k → W x ≤ (info.get x).deadline ∧ W x ≤ (info.get x).period ∧
        rem x + loc x + (info.get x).cost +
          ∑ i ∈ Finset.univ.filter (fun i : Fin info.length => (info.get i).cluster = (info.get x).cluster ∧
              (info.get i).priority < (info.get x).priority),
            cdiv (W x + (if rem i = 0 then 0 else W i - (info.get i).cost))
              (info.get i).period * (info.get i).cost ≤ W x := by
  classical
  set idx := (List.finRange info.length).filter (fun i => (info.get i).cluster = k) with hidx
  unfold partTasks at h
  rw [← hidx] at h
  have hlen : (idx.map (partTask info rem loc)).length = idx.length := by simp
  let f : Fin (idx.map (partTask info rem loc)).length → Fin info.length := fun a => idx.get (a.cast hlen)
  have hget : ∀ a, (idx.map (partTask info rem loc)).get a = partTask info rem loc (f a) := by
    intro a
    simp [f]
  have hnodup : idx.Nodup := (List.nodup_finRange _).filter _
  have hf : Function.Injective f := by
    intro a b hab
    have := List.nodup_iff_injective_get.1 hnodup hab
    exact Fin.ext (by simpa using congrArg Fin.val this)
  have hmem : ∀ i, i ∈ idx ↔ (info.get i).cluster = k := by
    intro i
    rw [hidx]
    simp
  have hproc : ∀ i, (info.get i).cluster = k ↔ ∃ a, f a = i := by
    intro i
    rw [← hmem]
    constructor
    · intro hi
      obtain ⟨a, ha⟩ := List.get_of_mem hi
      exact ⟨a.cast hlen.symm, by rw [← ha]; rfl⟩
    · rintro ⟨a, rfl⟩
      exact List.get_mem _ _
  have hmono : StrictMono f := by
    have hs : idx.Pairwise (· < ·) := by
      rw [hidx]
      exact (List.sortedLT_finRange _).pairwise.filter _
    intro a b hab
    exact (List.pairwise_iff_get.1 hs) (a.cast hlen) (b.cast hlen) hab
  have hp1 : ∀ i j : Fin info.length, i < j → (info.get i).cluster = k → (info.get j).cluster = k →
      (info.get i).priority < (info.get j).priority := by
    intro i j hij h1 h2
    exact (List.pairwise_iff_get.1 hprio) i j hij (h1.trans h2.symm)
  have hfk : ∀ a, (info.get (f a)).cluster = k := fun a => (hproc (f a)).2 ⟨a, rfl⟩
  have hlt : ∀ a b, a < b ↔ (info.get (f a)).priority < (info.get (f b)).priority := by
    intro a b
    constructor
    · intro hab
      exact hp1 _ _ (hmono hab) (hfk a) (hfk b)
    · intro hab
      by_contra hle
      rcases (not_lt.1 hle).lt_or_eq with h1 | h1
      · have := hp1 _ _ (hmono h1) (hfk b) (hfk a)
        omega
      · rw [h1] at hab
        omega
  let p : FpParams (idx.map (partTask info rem loc)).length := ⟨fun a => (info.get (f a)).cost,
    fun a => (info.get (f a)).period, fun _ => 0, fun a => rem (f a),
    fun a => loc (f a)⟩
  have hmat : Fp.Matches (idx.map (partTask info rem loc)) p := by
    refine ⟨fun a => by rw [hget]; rfl, fun a => by rw [hget]; rfl, fun a => by rw [hget]; simp [partTask, p],
      fun a => by rw [hget]; rfl, fun hno => ?_, fun _ a => ?_⟩
    · intro a
      have := hno a
      rw [hget] at this
      simp [partTask] at this
    · refine ⟨_, Or.inl (by rw [hget]; rfl), ?_⟩
      change loc (f a) + rem (f a) ≤ _
      omega
  obtain ⟨W, hdone, hW⟩ := Fp.accepted_bounds hmat (fun a => hT _ (List.get_mem info (f a))) h
  let W' : Fin info.length → ℕ := fun i => if hi : ∃ a, f a = i then W hi.choose else 0
  have hch : ∀ a, W' (f a) = W a := by
    intro a
    have hi : ∃ b, f b = f a := ⟨a, rfl⟩
    simp only [W']
    rw [dif_pos hi]
    exact congrArg W (hf hi.choose_spec)
  refine ⟨W', ?_, ?_⟩
  · rw [hdone]
    apply List.ext_getElem
    · simp
    · intro a h1 h2
      simp only [List.map_ofFn, List.getElem_ofFn, Function.comp_apply, List.getElem_map]
      rw [List.length_map, List.length_ofFn] at h1
      have := hch ⟨a, h1⟩
      have e : idx[a]'(by simpa using h1) = f ⟨a, h1⟩ := rfl
      rw [e, this]
      simp [p]
  · intro x hx
    obtain ⟨a, rfl⟩ := (hproc x).1 hx
    obtain ⟨w1, w2, w3⟩ := hW a
    rw [hch]
    refine ⟨?_, w2, ?_⟩
    · rw [hget] at w1
      have w1 : (W a : ℚ) ≤ ((info.get (f a)).deadline : ℚ) := w1
      exact_mod_cast w1
    · refine le_trans (le_of_eq ?_) w3
      have e : Finset.univ.filter (fun i : Fin info.length => (info.get i).cluster = (info.get (f a)).cluster ∧
              (info.get i).priority < (info.get (f a)).priority) = (Finset.univ.filter (· < a)).map ⟨f, hf⟩ := by
        ext i
        simp only [Finset.mem_filter, Finset.mem_univ, true_and, Finset.mem_map, Function.Embedding.coeFn_mk]
        constructor
        · rintro ⟨h1, h2⟩
          obtain ⟨b, rfl⟩ := (hproc i).1 (h1.trans (hfk a))
          exact ⟨b, (hlt b a).2 h2, rfl⟩
        · rintro ⟨b, hb, rfl⟩
          exact ⟨(hfk b).trans (hfk a).symm, (hlt b a).1 hb⟩
      rw [e, Finset.sum_map]
      have e2 : ∀ b, cdiv (W a + (if rem (f b) = 0 then 0
          else W' (f b) - (info.get (f b)).cost)) (info.get (f b)).period * (info.get (f b)).cost =
          cdiv (W a + (if p.S b = 0 then p.J b else W b + p.J b - p.C b)) (p.T b) * p.C b := by
        intro b
        rw [hch]
        rfl
      simp only [Function.Embedding.coeFn_mk]
      rw [Finset.sum_congr rfl (fun b _ => e2 b)]
      change _ = loc (f a) + ((info.get (f a)).cost +
        rem (f a)) + _
      omega


/-- The tasks of higher priority on the processor of task `k`. -/
def higher (info : Info) (k : Fin info.length) : Finset (Fin info.length) :=
  Finset.univ.filter (fun i : Fin info.length => (info.get i).cluster = (info.get k).cluster ∧
    (info.get i).priority < (info.get k).priority)

open Classical in
/-- **Partitioned fixed-priority scheduling**: accepted processors and bounds that cover all other delays imply
that response times are bounded. -/
theorem part_fp_safe (info : Info) (rem loc : Fin info.length → ℕ) (fuel : ℕ) (hT : ∀ t ∈ info, 0 < t.period)
    (hprio : info.Pairwise (fun a b => a.cluster = b.cluster → a.priority < b.priority))
    (done : ℕ → List (Fp.FpTask × ℚ))
    (h : ∀ t ∈ info, Fp.boundResponseTimes fuel 1 (partTasks info rem loc t.cluster) = some (true, done t.cluster)) :
    ∃ W : Fin info.length → ℕ,
      (∀ t ∈ info, (done t.cluster).map Prod.snd =
        ((List.finRange info.length).filter (fun i => (info.get i).cluster = t.cluster)).map (fun i => (W i : ℚ))) ∧
      (∀ i, W i ≤ (info.get i).deadline ∧ W i ≤ (info.get i).period ∧ rem i + loc i + (info.get i).cost ≤ W i) ∧
      ∀ (m : ℕ) (R : LockRun info.length), RequestRun m (system info) R →
        (∀ (H : ℕ) (k : Fin info.length) (q0 q1 a e : ℕ), BoundedBefore R.work R.sched W H →
          Window R.work R.sched k (fun i => i ∈ higher info k ∧ rem i = 0) q0 q1 a e → e ≤ H →
          e = a + (q0 - q1 + 1) * W k →
          ((Finset.Ico a e).filter (fun t => ∀ j ∈ R.sched t, j.1 ≠ k ∧ j.1 ∉ higher info k)).card ≤
            (q0 - q1 + 1) * (rem k + loc k)) →
        ∀ H, BoundedBefore R.work R.sched W H := by
  have hacc := fun t (ht : t ∈ info) => part_accepted info rem loc t.cluster fuel hT hprio (done t.cluster) (h t ht)
  have hacc' : ∀ i : Fin info.length, ∃ W : Fin info.length → ℕ, _ := fun i => hacc (info.get i) (List.get_mem info i)
  choose Wf hWf using hacc'
  have hsame : ∀ i x : Fin info.length, (info.get x).cluster = (info.get i).cluster → Wf i x = Wf x x := by
    intro i x hx
    have h1 := (hWf i).1
    have h2 := (hWf x).1
    rw [hx] at h2
    rw [h2] at h1
    have := List.map_inj_left.1 h1 x (List.mem_filter.2 ⟨List.mem_finRange x, by simpa using hx⟩)
    exact_mod_cast this.symm
  have hfix : ∀ x : Fin info.length, rem x + loc x + (info.get x).cost + ∑ i ∈ higher info x,
      cdiv (Wf x x + (if rem i = 0 then 0 else Wf i i - (info.get i).cost))
        (info.get i).period * (info.get i).cost ≤ Wf x x := by
    intro x
    refine le_trans (le_of_eq ?_) ((hWf x).2 x rfl).2.2
    congr 1
    apply Finset.sum_congr rfl
    intro i hi
    obtain ⟨_, hi1, _⟩ := Finset.mem_filter.1 hi
    rw [hsame x i hi1]
  have hWT : ∀ i, Wf i i ≤ (info.get i).period := fun i => ((hWf i).2 i rfl).2.1
  refine ⟨fun i => Wf i i, ?_, ?_, ?_⟩
  · intro t ht
    obtain ⟨i, rfl⟩ := List.get_of_mem ht
    rw [(hWf i).1]
    apply List.map_congr_left
    intro x hx
    have hx := (List.mem_filter.1 hx).2
    simp only [decide_eq_true_eq] at hx
    rw [hsame i x hx]
  · intro i
    have := hfix i
    exact ⟨((hWf i).2 i rfl).1, hWT i, by beta_reduce; omega⟩
  · intro m R hR hidle H
    induction H with
    | zero => intro j hj; omega
    | succ H ih =>
      rintro ⟨k, q0⟩ hj
      rcases Nat.lt_or_ge (R.work.release (k, q0) + Wf k k) H with h1 | h1
      · exact ih (k, q0) h1
      have hH : R.work.release (k, q0) + Wf k k = H := by
        simp only at hj
        omega
      have hC : ∀ i, (info.get i).cost ≤ Wf i i := by
        intro i
        have := hfix i
        omega
      refine pfp_core hR.sporadic hR.valid (fun i => hT _ (List.get_mem info i)) k (higher info k)
        (fun i => i ∈ higher info k ∧ rem i = 0) (fun i => Wf i i) (Wf k k) (rem k + loc k) q0
        ?_ (fun i hi => hi.1) ?_ (hWT k) ?_
      · intro i _ _
        refine ⟨(hC i).trans (hWT i), hC i, fun q hq => ih (i, q) ?_⟩
        rw [hH] at hq
        exact hq
      · refine le_trans (le_of_eq ?_) (hfix k)
        congr 1
        apply Finset.sum_congr rfl
        intro i hi
        by_cases hh : rem i = 0
        · rw [if_pos ⟨hi, hh⟩, if_pos hh]
          rfl
        · rw [if_neg (fun h => hh h.2), if_neg hh]
          rfl
      · intro a q1 hwin hle
        rw [hH] at hle
        exact hidle H k q0 q1 a _ ih hwin hle rfl

end Verif.SR
