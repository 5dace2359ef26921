/-
How long resources are held and waited for under global scheduling with priority queues.
-/
import Verif.Lemmas.LpGlobalInherit

namespace Verif.SR.Lp.Glob
open Verif.Spec Finset
open Verif.SR.Msrp (system)
open Verif.SR.Fmlp (totalNumRequests)

variable {info : Info} {k : Fin info.length} {m : ℕ} {R : LockRun info.length}

/-! ### Loops -/

theorem holdLoop_spec {m len D : ℕ} {f : ℕ → ℕ} : ∀ {fuel I H : ℕ}, holdLoop m len D f fuel I = some H →
    H ≠ Msrp.uintMax → H = len + Native.divideWithCeil (f H) m := by
  intro fuel
  induction fuel with
  | zero => intro I H h; simp [holdLoop] at h
  | succ fuel ih =>
    intro I H h hne
    unfold holdLoop at h
    by_cases h1 : I > D
    · rw [if_pos h1] at h
      cases h
      exact absurd rfl hne
    · rw [if_neg h1] at h
      simp only at h
      by_cases h2 : I ≠ len + Native.divideWithCeil (f I) m
      · rw [if_pos h2] at h
        exact ih h hne
      · rw [if_neg h2] at h
        push Not at h2
        cases h
        rw [← h2]
        exact h2

theorem waitLoop_spec {D lower : ℕ} {f : ℕ → Option ℕ} : ∀ {fuel I W : ℕ}, waitLoop D lower f fuel I = some W →
    W ≠ Msrp.uintMax → W ≤ D ∧ ∃ w, f W = some w ∧ w ≠ Msrp.uintMax ∧ W = lower + w + 1 := by
  intro fuel
  induction fuel with
  | zero => intro I W h; simp [waitLoop] at h
  | succ fuel ih =>
    intro I W h hne
    unfold waitLoop at h
    by_cases h1 : I > D
    · rw [if_pos h1] at h
      cases h
      exact absurd rfl hne
    · rw [if_neg h1, Option.bind_eq_some_iff] at h
      obtain ⟨w, hw, h⟩ := h
      by_cases h2 : w = Msrp.uintMax
      · rw [if_pos h2] at h
        cases h
        exact absurd rfl hne
      · rw [if_neg h2] at h
        simp only at h
        by_cases h3 : I ≠ lower + w + 1
        · rw [if_pos h3] at h
          exact ih h hne
        · rw [if_neg h3] at h
          push Not at h3
          cases h
          rw [← h3]
          exact ⟨not_lt.1 h1, w, hw, h2, h3⟩

theorem waitHigherLoop_spec {hold : ℕ × TaskInfo → ℕ → Option ℕ} {q I : ℕ} : ∀ {l : List (ℕ × TaskInfo)} {s w : ℕ},
    waitHigherLoop hold q I l s = some w → w ≠ Msrp.uintMax →
    (∀ t ∈ l, ∃ H, hold t q = some H ∧ H ≠ Msrp.uintMax) ∧
    w = s + (l.map (fun t => t.2.maxNumJobs I * numRequests t.2 q * (hold t q).getD 0)).sum := by
  intro l
  induction l with
  | nil =>
    intro s w h hne
    simp only [waitHigherLoop, Option.some.injEq] at h
    simp [h]
  | cons a l ih =>
    intro s w h hne
    unfold waitHigherLoop at h
    rw [Option.bind_eq_some_iff] at h
    obtain ⟨H, hH, h⟩ := h
    by_cases h2 : H = Msrp.uintMax
    · rw [if_pos h2] at h
      cases h
      exact absurd rfl hne
    · rw [if_neg h2] at h
      obtain ⟨h3, h4⟩ := ih h hne
      refine ⟨?_, ?_⟩
      · intro t ht
        rcases List.mem_cons.1 ht with rfl | ht
        · exact ⟨H, hH, h2⟩
        · exact h3 t ht
      · rw [h4, List.map_cons, List.sum_cons, hH, Option.getD_some]
        omega

theorem foldlM_max {α : Type} {f : α → Option ℕ} : ∀ {l : List α} {s w : ℕ},
    l.foldlM (fun acc t => (f t).map (fun h => max acc h)) s = some w →
    s ≤ w ∧ ∀ t ∈ l, ∃ H, f t = some H ∧ H ≤ w := by
  intro l
  induction l with
  | nil =>
    intro s w h
    simp only [List.foldlM_nil, Option.pure_def, Option.some.injEq] at h
    simp [h]
  | cons a l ih =>
    intro s w h
    rw [List.foldlM_cons] at h
    simp only [Option.bind_eq_bind, Option.bind_eq_some_iff, Option.map_eq_some_iff] at h
    obtain ⟨_, ⟨H, hH, rfl⟩, h⟩ := h
    obtain ⟨h1, h2⟩ := ih h
    refine ⟨by omega, ?_⟩
    intro t ht
    rcases List.mem_cons.1 ht with rfl | ht
    · exact ⟨H, hH, by omega⟩
    · exact h2 t ht

/-! ### Interference -/

theorem requestLength_eq (h1 : OneEntry info) {x : Fin info.length} {a : Request} (ha : a ∈ (info.get x).requests) :
    Pedf.requestLength (info.get x) a.resId = a.length := by
  unfold Pedf.requestLength
  have h := h1.requestOf ha
  unfold requestOf at h
  rw [fin_get?] at h
  simp only [Option.map_eq_some_iff] at h
  obtain ⟨b, hb, e⟩ := h
  cases e
  rw [hb]

/-- Slots of an interval in which a task executes. -/
theorem busy_le (h : RequestRun m (system info) R) (hg : Good info) {x : Fin info.length} {b L E : ℕ}
    (hb : BoundedBefore R.work R.sched (fun i => (info.get i).response) E) (hE : b + L ≤ E) :
    busySlots R.sched x b (b + L) ≤ workloadBound (info.get x) L := by
  have hmem := List.get_mem info x
  rw [workloadBound_eq (hg.deadline _ hmem) (hg.cost _ hmem), busySlots_eq_intf]
  exact wc_work (prio := fun _ => 0) (p := 0) h.sporadic h.valid (E := fun i => (info.get i).response) (i := x)
      (hg.period _ hmem) ((hg.cost _ hmem).trans (hg.response _ hmem)) (hg.cost _ hmem) (hb.mono hE)

open Classical in
/-- Slots of an interval in which a task executes sections for certain resources. -/
theorem section_slots_le (h : RequestRun m (system info) R) (hg : Good info) {x : Fin info.length} {lo hi E : ℕ}
    (hb : BoundedBefore R.work R.sched (fun i => (info.get i).response) E) (hE : hi ≤ E) (P : ℕ → Prop)
    {V : Finset ℕ} (hV : ∀ t ∈ V, lo ≤ t ∧ t < hi) :
    (V.filter (fun t => ∃ z r, z.job.1 = x ∧ R.Owns z t ∧ z.job ∈ R.sched t ∧ (system info).For z r ∧ P r)).card ≤
      ((info.get x).requests.map (fun r => if P r.resId then
        (info.get x).maxNumJobs (hi - lo) * numRequests (info.get x) r.resId * r.length else 0)).sum := by
  set A : Fin (info.get x).requests.length → Finset ℕ := fun d => V.filter (fun t => ∃ z : Section info.length,
    z.job.1 = x ∧ z.idx = (d : ℕ) ∧ R.Owns z t ∧ z.job ∈ R.sched t ∧ P ((info.get x).requests.get d).resId) with hA
  have hsub : V.filter (fun t => ∃ z r, z.job.1 = x ∧ R.Owns z t ∧ z.job ∈ R.sched t ∧ (system info).For z r ∧ P r) ⊆
      univ.biUnion A := by
    intro t ht
    obtain ⟨ht, z, r, hx, ho, hj, hf, hP⟩ := mem_filter.1 ht
    obtain ⟨a, ha, rfl⟩ := for_iff.1 hf
    rw [hx] at ha
    obtain ⟨hd, e⟩ := List.getElem?_eq_some_iff.1 ha
    refine mem_biUnion.2 ⟨⟨z.idx, hd⟩, mem_univ _, mem_filter.2 ⟨ht, z, hx, rfl, ho, hj, ?_⟩⟩
    rw [List.get_eq_getElem]
    simp only [e]
    exact hP
  have hsum : ((info.get x).requests.map (fun r => if P r.resId then
        (info.get x).maxNumJobs (hi - lo) * numRequests (info.get x) r.resId * r.length else 0)).sum =
      ∑ d : Fin (info.get x).requests.length, (if P ((info.get x).requests.get d).resId then
        (info.get x).maxNumJobs (hi - lo) * numRequests (info.get x) ((info.get x).requests.get d).resId *
          ((info.get x).requests.get d).length else 0) := by
    rw [← Fin.sum_univ_fun_getElem]
    rfl
  rw [hsum]
  refine (card_le_card hsub).trans (card_biUnion_le.trans (sum_le_sum ?_))
  intro d _
  by_cases hP : P ((info.get x).requests.get d).resId
  swap
  · rw [if_neg hP, Nat.le_zero, card_eq_zero, filter_eq_empty_iff]
    rintro t _ ⟨z, _, _, _, _, h2⟩
    exact hP h2
  rw [if_pos hP]
  have ha : (info.get x).requests[(d : ℕ)]? = some ((info.get x).requests.get d) := by simp
  set a := (info.get x).requests.get d with hadef
  rw [numRequests_eq hg.entry (List.mem_of_getElem? ha)]
  have hz : ∀ t ∈ A d, ∃ z : Section info.length, z.job.1 = x ∧ z.idx = (d : ℕ) ∧ R.Owns z t ∧ z.job ∈ R.sched t := by
    intro t ht
    obtain ⟨_, z, h1, h2, h3, h4, _⟩ := mem_filter.1 ht
    exact ⟨z, h1, h2, h3, h4⟩
  haveI : Nonempty (Section info.length) := ⟨⟨(x, 0), 0, 0⟩⟩
  choose! f hf using hz
  have hcard : ((A d).image f).card ≤ (info.get x).maxNumJobs (hi - lo) * a.num := by
    refine (h.requests_le hb (i := x) (hg.period _ (List.get_mem info x)) (lock_req' ha) hE (lo := lo) ?_).trans ?_
    · intro z hz
      obtain ⟨t, ht, rfl⟩ := mem_image.1 hz
      obtain ⟨h1, h2, h3, h4⟩ := hf t ht
      have := hV t (mem_filter.1 ht).1
      exact ⟨h3.1, h1, h2, t, this.1, this.2, (h.owns_active h3).1, (h.owns_active h3).2⟩
    · apply Nat.mul_le_mul_right
      unfold TaskInfo.maxNumJobs
      rw [Native.divideWithCeil_eq _ (hg.period _ (List.get_mem info x))]
      rfl
  refine (R.slots_le (F := (A d).image f) (fun t ht => ⟨f t, mem_image_of_mem _ ht, (hf t ht).2.2⟩)).trans ?_
  refine (sum_le_card_nsmul _ _ a.length ?_).trans ?_
  · intro z hz
    obtain ⟨t, ht, rfl⟩ := mem_image.1 hz
    obtain ⟨h1, h2, h3, h4⟩ := hf t ht
    have := h.length (f t) ⟨a.resId, a.num, a.length⟩ h3.1 (by
      rw [h2, h1]
      exact lock_req' ha)
    unfold LockRun.use
    refine le_trans (le_of_eq ?_) this
    congr
  · rw [smul_eq_mul]
    exact Nat.mul_le_mul_right _ hcard

/-! ### Holding a resource -/

/-- Slots before `E` in which section `s` waits for section `z`. -/
def heldSlots (R : LockRun info.length) (E : ℕ) (s z : Section info.length) : Finset ℕ :=
  Ico (max (R.enter s) (R.acquire z)) (min E (min (R.acquire s) (R.leave z)))

theorem mem_heldSlots {E t : ℕ} {s z : Section info.length} (hs : R.issued s) (hz : R.issued z) :
    t ∈ heldSlots R E s z ↔ t < E ∧ R.Waits s t ∧ R.Owns z t := by
  unfold heldSlots LockRun.Waits LockRun.Owns
  rw [mem_Ico, max_le_iff, lt_min_iff, lt_min_iff]
  tauto

/-- How long a resource is held while another section waits for it. -/
theorem held_le (h : RequestRun m (system info) R) (hu : ExecutesUntilRelease R) (h1 : OneEntry info) (hm : 0 < m)
    {interf : ℕ × TaskInfo → ℕ → ℕ} {fuel E H q : ℕ} {s z : Section info.length} (hs : R.issued s) (hz : R.issued z)
    (hf : (system info).For z q)
    (hH : holdTime m fuel interf ((z.job.1 : ℕ), info.get z.job.1) q = some H) (hne : H ≠ Msrp.uintMax)
    (hfirst : (z.job.1 : ℕ) < m → ∀ t, R.Waits s t → R.Owns z t → z.job ∈ R.sched t)
    (hI : ∀ (b L : ℕ) (V : Finset ℕ), b + L ≤ E → (∀ t ∈ V, b ≤ t ∧ t < b + L ∧ R.Waits s t ∧ R.Owns z t ∧
      z.job ∉ R.sched t) → m * V.card ≤ interf ((z.job.1 : ℕ), info.get z.job.1) L) :
    (heldSlots R E s z).card ≤ H := by
  classical
  obtain ⟨a, ha, haq, _⟩ := waits_request h hz hf
  have hlen := h.length z _ hz (lock_req' ha)
  simp only at hlen
  have hrl := requestLength_eq h1 (x := z.job.1) (List.mem_of_getElem? ha)
  rw [haq] at hrl
  unfold holdTime at hH
  simp only [hrl] at hH
  by_cases h0 : a.length = 0
  · -- nothing is executed, so the resource is not held
    rw [if_pos h0] at hH
    cases hH
    rw [Nat.le_zero, card_eq_zero]
    apply eq_empty_of_forall_notMem
    intro t ht
    obtain ⟨_, _, ho⟩ := (mem_heldSlots hs hz).1 ht
    have hlt : R.acquire z < R.leave z := lt_of_le_of_lt ho.2.1 ho.2.2
    rw [h0, Nat.le_zero, card_eq_zero, filter_eq_empty_iff] at hlen
    exact hlen (mem_Ico.2 (show R.acquire z ≤ R.leave z - 1 ∧ R.leave z - 1 < R.leave z by omega)) (hu z hz hlt)
  rw [if_neg h0] at hH
  by_cases hx : (z.job.1 : ℕ) < m
  · rw [if_pos hx] at hH
    cases hH
    refine le_trans (card_le_card ?_) hlen
    intro t ht
    obtain ⟨_, hw, ho⟩ := (mem_heldSlots hs hz).1 ht
    exact mem_filter.2 ⟨mem_Ico.2 ho.2, hfirst hx t hw ho⟩
  rw [if_neg hx] at hH
  have hfix := holdLoop_spec hH hne
  by_contra hc
  push Not at hc
  set b := max (R.enter s) (R.acquire z) with hb
  have hcard : b + H < min E (min (R.acquire s) (R.leave z)) := by
    unfold heldSlots at hc
    rw [Nat.card_Ico] at hc
    omega
  have hall : ∀ t ∈ Ico b (b + H), R.Waits s t ∧ R.Owns z t := by
    intro t ht
    rw [mem_Ico] at ht
    exact ((mem_heldSlots (E := E) hs hz).1 (mem_Ico.2 ⟨ht.1, by omega⟩)).2
  set V := (Ico b (b + H)).filter (fun t => z.job ∉ R.sched t) with hV
  have h3 := hI b H V (by omega) (fun t ht => by
    obtain ⟨ht, hn⟩ := mem_filter.1 ht
    obtain ⟨h1, h2⟩ := hall t ht
    rw [mem_Ico] at ht
    exact ⟨ht.1, ht.2, h1, h2, hn⟩)
  -- the last slot of the section is executed, but not counted
  have h4 : ((Ico b (b + H)).filter (fun t => z.job ∈ R.sched t)).card + 1 ≤ a.length := by
    refine le_trans ?_ hlen
    rw [← card_insert_of_notMem (a := R.leave z - 1) (s := (Ico b (b + H)).filter (fun t => z.job ∈ R.sched t))]
    · apply card_le_card
      intro t ht
      rcases mem_insert.1 ht with rfl | ht
      · refine mem_filter.2 ⟨mem_Ico.2 ?_, hu z hz ?_⟩ <;> omega
      · obtain ⟨ht, hx⟩ := mem_filter.1 ht
        exact mem_filter.2 ⟨mem_Ico.2 (hall t ht).2.2, hx⟩
    · intro hmem
      have := mem_Ico.1 (mem_filter.1 hmem).1
      omega
  have h5 := card_filter_add_card_filter_not (s := Ico b (b + H)) (fun t => z.job ∈ R.sched t)
  rw [Nat.card_Ico] at h5
  have h6 : V.card = ((Ico b (b + H)).filter (fun t => ¬ z.job ∈ R.sched t)).card := rfl
  rw [Native.divideWithCeil_eq _ hm] at hfix
  change H = a.length + cdiv _ _ at hfix
  have h7 := le_cdiv_mul (interf ((z.job.1 : ℕ), info.get z.job.1) H) hm
  set c := cdiv (interf ((z.job.1 : ℕ), info.get z.job.1) H) m with hcdef
  have h8 : m * (c + 1) ≤ m * V.card := Nat.mul_le_mul_left _ (by omega)
  rw [Nat.mul_add, Nat.mul_one, Nat.mul_comm m c] at h8
  omega

/-- Full slots in which only the tasks `A` execute. -/
theorem full_sum (h : RequestRun m (system info) R) {V : Finset ℕ} {A : Finset (Fin info.length)}
    {M : Fin info.length → ℕ → Prop} {g : Fin info.length → ℕ}
    (hV : ∀ t ∈ V, (R.sched t).card = m ∧ ∀ j ∈ R.sched t, j.1 ∈ A ∧ M j.1 t)
    (hg : ∀ y ∈ A, ∀ X ⊆ V, (∀ t ∈ X, (∃ p, (y, p) ∈ R.sched t) ∧ M y t) → X.card ≤ g y) :
    m * V.card ≤ ∑ y ∈ A, g y := by
  classical
  have h1 := sum_card_marked h.valid A (fun y _ t => M y t) V
  have h2 : ∑ t ∈ V, ((R.sched t).filter (fun j => j.1 ∈ A ∧ M j.1 t)).card = m * V.card := by
    rw [sum_congr rfl (fun t ht => by
      rw [filter_true_of_mem (s := R.sched t) (fun j hj => (hV t ht).2 j hj), (hV t ht).1]), sum_const, smul_eq_mul,
      Nat.mul_comm]
  rw [← h2]
  refine h1.trans (sum_le_sum (fun y hy => hg y hy _ (filter_subset _ _) ?_))
  intro t ht
  obtain ⟨_, p, h3, h4⟩ := mem_filter.1 ht
  exact ⟨⟨p, h3⟩, h4⟩

/-- Holding times without a progress mechanism. -/
theorem plain_held (h : PlainLocks m (system info) R) (hu : ExecutesUntilRelease R) (hg : Good info) (hm : 0 < m)
    {fuel E H q : ℕ} (hb : BoundedBefore R.work R.sched (fun i => (info.get i).response) E)
    {s z : Section info.length} (hs : R.issued s) (hsk : s.job.1 = k) (hz : R.issued z) (hf : (system info).For z q)
    (hH : holdTime m fuel (interfNo info k) ((z.job.1 : ℕ), info.get z.job.1) q = some H) (hne : H ≠ Msrp.uintMax) :
    (heldSlots R E s z).card ≤ H := by
  classical
  have hfull : ∀ t, R.Owns z t → z.job ∉ R.sched t → (R.sched t).card = m ∧ ∀ j ∈ R.sched t, j.1 < z.job.1 :=
    fun t ho hn => h.dispatch t z.job (h.owns_ready ho) hn (fun s2 hw2 => h.owns_not_waits ho hw2)
  refine held_le h.toRequestRun hu hg.entry hm hs hz hf hH hne ?_ ?_
  · intro hx t _ ho
    by_contra hn
    obtain ⟨h1, h2⟩ := hfull t ho hn
    exact h.not_full hx h1 (fun j hj => ⟨j.1, h2 j hj, Or.inl rfl⟩)
  · intro b L V hE hV
    have hsum : interfNo info k ((z.job.1 : ℕ), info.get z.job.1) L =
        ∑ y ∈ univ.filter (fun y : Fin info.length => y < z.job.1 ∧ y ≠ k), workloadBound (info.get y) L := by
      unfold interfNo
      rw [tasks_sum (info := info) (fun t => t.2.priority < (info.get z.job.1).priority ∧ t.1 ≠ (k : ℕ))
        (fun t => workloadBound t.2 L)]
      apply sum_congr _ (fun _ _ => rfl)
      ext y
      simp only [mem_filter, hg.prio, Fin.lt_def, Fin.ext_iff, ne_eq]
    rw [hsum]
    refine full_sum h.toRequestRun (M := fun _ _ => True) (V := V)
      (A := univ.filter (fun y : Fin info.length => y < z.job.1 ∧ y ≠ k)) ?_ ?_
    · intro t ht
      obtain ⟨_, _, hw, ho, hn⟩ := hV t ht
      obtain ⟨h1, h2⟩ := hfull t ho hn
      refine ⟨h1, fun j hj => ⟨mem_filter.2 ⟨mem_univ _, h2 j hj, ?_⟩, trivial⟩⟩
      intro e
      have := ready_eq (h.valid.ready t j hj) (h.waits_ready hw) (e.trans hsk.symm)
      exact h.suspends s t hw (this ▸ hj)
    · intro y _ X hX hXs
      refine le_trans (card_le_card ?_) (busy_le h.toRequestRun hg hb hE)
      intro t ht
      obtain ⟨hp, _⟩ := hXs t ht
      have := hV t (hX ht)
      exact mem_filter.2 ⟨mem_Ico.2 ⟨this.1, this.2.1⟩, hp⟩

/-- Holding times with priority inheritance. -/
theorem inherit_held (h : InheritLocks m (system info) R) (hu : ExecutesUntilRelease R) (hg : Good info) (hm : 0 < m)
    {fuel E H q : ℕ} (hb : BoundedBefore R.work R.sched (fun i => (info.get i).response) E)
    {s z : Section info.length} (hs : R.issued s) (hsk : s.job.1 = k) (hz : R.issued z) (hf : (system info).For z q)
    (hf' : (system info).For s q)
    (hH : holdTime m fuel (interfPi info k) ((z.job.1 : ℕ), info.get z.job.1) q = some H) (hne : H ≠ Msrp.uintMax) :
    (heldSlots R E s z).card ≤ H := by
  classical
  have hfull : ∀ t, R.Waits s t → R.Owns z t → z.job ∉ R.sched t → (R.sched t).card = m ∧ ∀ j ∈ R.sched t,
      ∃ a < k, R.ActsFor (system info) j a t ∧ a < z.job.1 := by
    intro t hw ho hn
    obtain ⟨h1, h2⟩ := h.cases (h.waits_ready hw) (h.suspends s t hw) (by
      intro s2 s2' r hw2 e ho2 hf2 hf2'
      have := h.waits_unique hw2 hw e
      subst this
      have := hf2.unique hf'
      subst this
      rw [h.exclusive s2' z _ t ho2 ho hf2' hf]
      exact hn)
    refine ⟨h1, fun j hj => ?_⟩
    obtain ⟨a, ha, hact, ha2⟩ := h2 j hj
    exact ⟨a, hsk ▸ ha, hact, ha2 s z q hw rfl ho hf' hf⟩
  refine held_le h.toRequestRun hu hg.entry hm hs hz hf hH hne ?_ ?_
  · intro hx t hw ho
    by_contra hn
    obtain ⟨h1, h2⟩ := hfull t hw ho hn
    exact h.not_full hx h1 (fun j hj => by
      obtain ⟨a, _, hact, ha⟩ := h2 j hj
      exact ⟨a, ha, hact⟩)
  · intro b L V hE hV
    set hi : Fin info.length := if z.job.1 > k then k else z.job.1 with hhi
    set lo : Fin info.length := if z.job.1 > k then z.job.1 else k with hlo
    have hlt : ∀ a, a < k → a < z.job.1 → a < hi := by
      intro a h1 h2
      rw [hhi]
      split_ifs <;> assumption
    have hsum : interfPi info k ((z.job.1 : ℕ), info.get z.job.1) L =
        ∑ y : Fin info.length, ((if y < hi then workloadBound (info.get y) L else 0) +
          (if y > hi ∧ y ≠ lo then ((info.get y).requests.map (fun r => if Msrp.ceilingOf info r.resId < hi then
            (info.get y).maxNumJobs L * numRequests (info.get y) r.resId * r.length else 0)).sum else 0)) := by
      have e1 : (if ((z.job.1 : ℕ), info.get z.job.1).1 > (k : ℕ) then ((z.job.1 : ℕ), info.get z.job.1).1
          else (k : ℕ)) = lo := by
        rw [hlo, apply_ite Fin.val]
        rfl
      have e2 : (if ((z.job.1 : ℕ), info.get z.job.1).1 > (k : ℕ) then (k : ℕ)
          else ((z.job.1 : ℕ), info.get z.job.1).1) = hi := by
        rw [hhi, apply_ite Fin.val]
        rfl
      unfold interfPi
      simp only [e1, e2]
      rw [tasks_eq, List.map_map, Fin.sum_univ_def]
      congr 1
      apply List.map_congr_left
      intro y _
      simp only [Function.comp_apply, Fin.lt_def, gt_iff_lt, ne_eq, Fin.ext_iff]
    rw [hsum]
    refine full_sum h.toRequestRun (M := fun y t => (y < hi) ∨ (y > hi ∧ y ≠ lo ∧ ∃ z' r, z'.job.1 = y ∧ R.Owns z' t ∧
      z'.job ∈ R.sched t ∧ (system info).For z' r ∧ Msrp.ceilingOf info r < hi)) (V := V) (A := univ) ?_ ?_
    · intro t ht
      obtain ⟨_, _, hw, ho, hn⟩ := hV t ht
      obtain ⟨h1, h2⟩ := hfull t hw ho hn
      refine ⟨h1, fun j hj => ⟨mem_univ _, ?_⟩⟩
      by_cases hjh : j.1 < hi
      · exact Or.inl hjh
      right
      have hjk : j.1 ≠ k := by
        intro e
        have := ready_eq (h.valid.ready t j hj) (h.waits_ready hw) (e.trans hsk.symm)
        exact h.suspends s t hw (this ▸ hj)
      have hjx : j.1 ≠ z.job.1 := by
        intro e
        have := ready_eq (h.valid.ready t j hj) (h.owns_ready ho) e
        exact hn (this ▸ hj)
      refine ⟨lt_of_le_of_ne (not_lt.1 hjh) ?_, ?_, ?_⟩
      · rw [hhi]
        split_ifs
        · exact hjk.symm
        · exact hjx.symm
      · rw [hlo]
        split_ifs
        · exact hjx
        · exact hjk
      · obtain ⟨a, ha, hact, ha2⟩ := h2 j hj
        have hah := hlt a ha ha2
        rcases hact with hact | ⟨s1, z1, r1, hw1, ho1, hf1, hf1', hs1, hz1⟩
        · exact absurd (hact ▸ hah) hjh
        · refine ⟨z1, r1, by rw [hz1], ho1, hz1 ▸ hj, hf1', ?_⟩
          refine lt_of_le_of_lt (Msrp.ceilingOf_le_of ⟨s1.job.1, hf1.uses, le_refl _⟩) ?_
          rw [hg.prio, hs1]
          exact Fin.lt_def.1 hah
    · intro y _ X hX hXs
      by_cases hy : y < hi
      · rw [if_pos hy]
        refine le_trans (le_trans (card_le_card ?_) (busy_le h.toRequestRun hg hb hE (x := y))) (Nat.le_add_right _ _)
        intro t ht
        obtain ⟨hp, _⟩ := hXs t ht
        have := hV t (hX ht)
        exact mem_filter.2 ⟨mem_Ico.2 ⟨this.1, this.2.1⟩, hp⟩
      · rw [if_neg hy, zero_add]
        by_cases hy2 : y > hi ∧ y ≠ lo
        · rw [if_pos hy2]
          have h9 := section_slots_le h.toRequestRun hg (x := y) (lo := b) (hi := b + L) hb hE
            (fun r => Msrp.ceilingOf info r < hi) (V := V) (fun t ht => ⟨(hV t ht).1, (hV t ht).2.1⟩)
          rw [Nat.add_sub_cancel_left] at h9
          refine le_trans (le_trans (card_le_card ?_) h9) (le_of_eq ?_)
          · intro t ht
            obtain ⟨_, hM⟩ := hXs t ht
            rcases hM with hM | ⟨_, _, z', r, h1⟩
            · exact absurd hM hy
            · exact mem_filter.2 ⟨hX ht, z', r, h1⟩
          · congr
            funext r
            congr
        · rw [if_neg hy2, Nat.le_zero, card_eq_zero]
          apply eq_empty_of_forall_notMem
          intro t ht
          obtain ⟨_, hM⟩ := hXs t ht
          rcases hM with hM | ⟨h1, h2, _⟩
          · exact hy hM
          · exact hy2 ⟨h1, h2⟩

/-! ### Waiting for a resource -/

theorem flat_sum {α β : Type} (l : List α) (g : α → List β) (f : β → ℕ) :
    ((l.flatMap g).map f).sum = (l.map (fun a => ((g a).map f).sum)).sum := by
  induction l with
  | nil => rfl
  | cons a l ih => simp [List.flatMap_cons, ih]

/-- A lower-priority section that holds a resource with a priority queue was granted it before the request. -/
theorem prio_early (hq : PriorityQueues (system info) R) {s z : Section info.length} {r t : ℕ} (hw : R.Waits s t)
    (ho : R.Owns z t) (hf : (system info).For s r) (hf' : (system info).For z r) (hlt : s.job.1 < z.job.1) :
    R.Owns z (R.enter s) := by
  refine ⟨ho.1, ?_, lt_of_le_of_lt hw.2.1 ho.2.2⟩
  by_contra hc
  exact absurd (hq s z r hw.1 ho.1 hf hf' (not_le.1 hc) (lt_of_le_of_lt ho.2.1 hw.2.2)) (not_le.2 hlt)

/-- How long a job waits for a resource with a priority queue. -/
theorem wait_lt (h : SuspendRun m (system info) R) (hg : Good info) (hq : PriorityQueues (system info) R)
    {hold : ℕ × TaskInfo → ℕ → Option ℕ} {fuel E W r : ℕ}
    (hb : BoundedBefore R.work R.sched (fun i => (info.get i).response) E)
    {s : Section info.length} (hs : R.issued s) (hsk : s.job.1 = k) (hf : (system info).For s r)
    (hword : (info.get k).deadline < 2 ^ 32)
    (hhold : ∀ z, R.issued z → (system info).For z r → ∀ H, hold ((z.job.1 : ℕ), info.get z.job.1) r = some H →
      H ≠ Msrp.uintMax → (heldSlots R E s z).card ≤ H)
    (hW : waitTime info (info.get k) fuel hold r = some W) (hne : W ≠ Msrp.uintMax) :
    min E (R.acquire s) < R.enter s + W := by
  classical
  unfold waitTime at hW
  rw [Option.bind_eq_some_iff] at hW
  obtain ⟨lower, hl, hW⟩ := hW
  by_cases h1 : lower = Msrp.uintMax
  · rw [if_pos h1] at hW
    cases hW
    exact absurd rfl hne
  rw [if_neg h1] at hW
  obtain ⟨hWD, w, hw, hwne, hfix⟩ := waitLoop_spec hW hne
  obtain ⟨_, hlow⟩ := foldlM_max (f := fun t => hold t r) hl
  obtain ⟨hhigh, hsum⟩ := waitHigherLoop_spec hw hwne
  by_contra hc
  push Not at hc
  -- all slots are spent waiting for some section
  have hwait : ∀ t ∈ Ico (R.enter s) (R.enter s + W), R.Waits s t ∧ t < E := by
    intro t ht
    rw [mem_Ico] at ht
    exact ⟨⟨hs, ht.1, by omega⟩, by omega⟩
  have hown : ∀ t ∈ Ico (R.enter s) (R.enter s + W), ∃ z, R.Owns z t ∧ (system info).For z r ∧ z.job.1 ≠ k := by
    intro t ht
    obtain ⟨z, ho, hfz⟩ := h.owned s r t (hwait t ht).1 hf
    refine ⟨z, ho, hfz, ?_⟩
    intro e
    have := ready_eq (h.owns_ready ho) (h.waits_ready (hwait t ht).1) (e.trans hsk.symm)
    exact h.owns_not_waits ho (hwait t ht).1 this.symm
  haveI : Nonempty (Section info.length) := ⟨s⟩
  choose! f hfz using hown
  set X := Ico (R.enter s) (R.enter s + W) with hX
  set F := X.image f with hF
  have hcard : X.card = W := by rw [hX, Nat.card_Ico]; omega
  have hFmem : ∀ z ∈ F, ∃ t ∈ X, R.Owns z t ∧ (system info).For z r ∧ z.job.1 ≠ k := by
    intro z hz
    obtain ⟨t, ht, rfl⟩ := mem_image.1 hz
    exact ⟨t, ht, hfz t ht⟩
  have hle : W ≤ ∑ z ∈ F, (heldSlots R E s z).card := by
    rw [← hcard, card_eq_sum_card_image f X]
    apply sum_le_sum
    intro z hz
    apply card_le_card
    intro t ht
    obtain ⟨ht', rfl⟩ := mem_filter.1 ht
    obtain ⟨ho, _⟩ := hfz t ht'
    exact (mem_heldSlots hs ho.1).2 ⟨(hwait t ht').2, (hwait t ht').1, ho⟩
  rw [← sum_filter_add_sum_filter_not F (fun z => k < z.job.1)] at hle
  have hlower : ∑ z ∈ F.filter (fun z => k < z.job.1), (heldSlots R E s z).card ≤ lower := by
    rcases eq_empty_or_nonempty (F.filter (fun z => k < z.job.1)) with he | ⟨z0, hz0⟩
    · rw [he]
      simp
    · have hone : F.filter (fun z => k < z.job.1) = {z0} := by
        refine eq_singleton_iff_unique_mem.2 ⟨hz0, ?_⟩
        intro z hz
        obtain ⟨hz, hlt⟩ := mem_filter.1 hz
        obtain ⟨hz0, hlt0⟩ := mem_filter.1 hz0
        obtain ⟨t, ht, ho, hfz, _⟩ := hFmem z hz
        obtain ⟨t0, ht0, ho0, hfz0, _⟩ := hFmem z0 hz0
        exact h.exclusive z z0 r _ (prio_early hq (hwait t ht).1 ho hf hfz (hsk ▸ hlt))
          (prio_early hq (hwait t0 ht0).1 ho0 hf hfz0 (hsk ▸ hlt0)) hfz hfz0
      rw [hone, sum_singleton]
      obtain ⟨hz0, hlt0⟩ := mem_filter.1 hz0
      obtain ⟨t0, ht0, ho0, hfz0, _⟩ := hFmem z0 hz0
      obtain ⟨H, hH, hHle⟩ := hlow _ ((mem_lowerTasks hg.prio).2 ⟨z0.job.1, hlt0, rfl⟩)
      refine (hhold z0 ho0.1 hfz0 H hH ?_).trans hHle
      have : Msrp.uintMax = 2 ^ 32 - 1 := by decide
      omega
  have hupper : ∑ z ∈ F.filter (fun z => ¬ k < z.job.1), (heldSlots R E s z).card ≤ w := by
    have e : w = ∑ x ∈ univ.filter (fun x : Fin info.length => x < k),
        (((info.get x).requests.filter (fun a => a.resId = r)).map (fun _ => (info.get x).maxNumJobs W *
          numRequests (info.get x) r * (hold ((x : ℕ), info.get x) r).getD 0)).sum := by
      rw [hsum, zero_add, flat_sum, higher_sum hg.prio]
      apply sum_congr rfl
      intro x _
      rw [List.map_map]
      rfl
    rw [e, ← sum_fiberwise_of_maps_to (s := F.filter (fun z => ¬ k < z.job.1)) (g := fun z => z.job.1)
      (t := univ.filter (fun x : Fin info.length => x < k))]
    · apply sum_le_sum
      intro x hx
      have hxk := (mem_filter.1 hx).2
      rcases eq_empty_or_nonempty ((F.filter (fun z => ¬ k < z.job.1)).filter (fun z => z.job.1 = x)) with he | ⟨z0, hz0⟩
      · rw [he]
        simp
      · obtain ⟨hz0, hx0⟩ := mem_filter.1 hz0
        obtain ⟨t0, ht0, ho0, hfz0, _⟩ := hFmem z0 (mem_filter.1 hz0).1
        obtain ⟨a, ha, haq, _⟩ := waits_request h.toRequestRun ho0.1 hfz0
        rw [hx0] at ha
        have hmem : a ∈ (info.get x).requests.filter (fun a => a.resId = r) :=
          List.mem_filter.2 ⟨List.mem_of_getElem? ha, by simpa using haq⟩
        obtain ⟨H, hH, hHne⟩ := hhigh ((x : ℕ), info.get x) (List.mem_flatMap.2 ⟨_, (mem_higherTasks hg.prio).2
          ⟨x, hxk, rfl⟩, List.mem_map.2 ⟨a, hmem, rfl⟩⟩)
        refine le_trans ?_ (List.single_le_sum (by simp) _ (List.mem_map.2 ⟨a, hmem, rfl⟩))
        rw [hH, Option.getD_some, ← haq, numRequests_eq hg.entry (List.mem_of_getElem? ha)]
        refine (sum_le_card_nsmul _ _ H ?_).trans ?_
        · intro z hz
          obtain ⟨hz, hzx⟩ := mem_filter.1 hz
          obtain ⟨t, ht, ho, hfz, _⟩ := hFmem z (mem_filter.1 hz).1
          exact hhold z ho.1 hfz H (by rw [hzx]; exact hH) hHne
        · rw [smul_eq_mul]
          apply Nat.mul_le_mul_right
          refine (h.requests_le hb (i := x) (hg.period _ (List.get_mem info x)) (lock_req' ha)
            (show R.enter s + W ≤ E by omega) (lo := R.enter s) ?_).trans ?_
          · intro z hz
            obtain ⟨hz, hzx⟩ := mem_filter.1 hz
            obtain ⟨t, ht, ho, hfz, _⟩ := hFmem z (mem_filter.1 hz).1
            obtain ⟨b, hb', hbq, _⟩ := waits_request h.toRequestRun ho.1 hfz
            rw [hzx] at hb'
            have ht' := mem_Ico.1 ht
            exact ⟨ho.1, hzx, (hg.entry.eq hb' ha (hbq.trans haq.symm)).1, t, ht'.1, ht'.2, (h.owns_active ho).1,
              (h.owns_active ho).2⟩
          · apply Nat.mul_le_mul_right
            unfold TaskInfo.maxNumJobs
            rw [Native.divideWithCeil_eq _ (hg.period _ (List.get_mem info x)), Nat.add_sub_cancel_left]
            rfl
    · intro z hz
      obtain ⟨hz, hlt⟩ := mem_filter.1 (mem_coe.1 hz)
      obtain ⟨_, _, _, _, hne⟩ := hFmem z hz
      exact mem_coe.2 (mem_filter.2 ⟨mem_univ _, lt_of_le_of_ne (not_lt.1 hlt) hne⟩)
  omega

end Verif.SR.Lp.Glob
