/-
Lemmas on `merge_rw_requests`: the merged entries and the requests of a job.
-/
import Verif.Lemmas.RwWait

namespace Verif.SR.Rw
open Verif.Spec

/-- The entry of a resource; resources without an entry are not used. -/
def entry (l : List RwCount) (q : ℕ) : RwCount := l.getD q { resId := q }

theorem entry_grow (l : List RwCount) (res q : ℕ) : entry (grow l res) q = entry l q := by
  unfold entry grow
  rw [List.getD_eq_getElem?_getD, List.getD_eq_getElem?_getD, List.getElem?_append]
  by_cases h : q < l.length
  · rw [if_pos h]
  · rw [if_neg h, List.getElem?_map, List.getElem?_eq_none (l := l) (by omega)]
    by_cases h2 : q - l.length < res + 1 - l.length
    · rw [List.getElem?_range' h2]
      simp
      omega
    · rw [List.getElem?_eq_none (by simpa using h2)]; rfl

theorem length_grow (l : List RwCount) (res : ℕ) : res < (grow l res).length ∧ l.length ≤ (grow l res).length := by
  unfold grow
  simp
  omega

theorem entry_modify (l : List RwCount) (res q : ℕ) (f : RwCount → RwCount) (h : res < l.length) :
    entry (l.modify res f) q = if res = q then f (entry l q) else entry l q := by
  unfold entry
  rw [List.getD_eq_getElem?_getD, List.getD_eq_getElem?_getD, List.getElem?_modify]
  by_cases hq : res = q
  · subst hq
    rw [List.getElem?_eq_getElem h]
    simp
  · simp [hq]

/-- What `merge_rw_requests` does to the entry of one resource. -/
def mergeEntry (q : ℕ) (c : RwCount) (reqs : List Request) : RwCount :=
  reqs.foldl (fun c r => if r.resId = q then c.update r else c) c

theorem update_resId (c : RwCount) (r : Request) : (c.update r).resId = c.resId := by
  unfold RwCount.update; split <;> rfl

theorem merge_fold (reqs : List Request) : ∀ l q,
    entry (reqs.foldl (fun counts r => (grow counts r.resId).modify r.resId (RwCount.update r)) l) q =
      mergeEntry q (entry l q) reqs ∧
    l.length ≤ (reqs.foldl (fun counts r => (grow counts r.resId).modify r.resId (RwCount.update r)) l).length ∧
    ∀ r ∈ reqs, r.resId <
      (reqs.foldl (fun counts r => (grow counts r.resId).modify r.resId (RwCount.update r)) l).length := by
  induction reqs with
  | nil => intro l q; simp [mergeEntry]
  | cons r reqs ih =>
    intro l q
    obtain ⟨h1, h2, h3⟩ := ih ((grow l r.resId).modify r.resId (RwCount.update r)) q
    obtain ⟨g1, g2⟩ := length_grow l r.resId
    rw [List.length_modify] at h2
    simp only [List.foldl_cons]
    refine ⟨?_, by omega, ?_⟩
    · rw [h1, entry_modify _ _ _ _ g1, entry_grow]
      rfl
    · intro r' hr'
      rcases List.mem_cons.mp hr' with rfl | hr'
      · omega
      · exact h3 r' hr'

theorem entry_mergeRw (reqs : List Request) (q : ℕ) : entry (mergeRw reqs) q = mergeEntry q { resId := q } reqs :=
  (merge_fold reqs [] q).1

theorem lt_mergeRw {reqs : List Request} {r : Request} (h : r ∈ reqs) : r.resId < (mergeRw reqs).length :=
  (merge_fold reqs [] 0).2.2 r h

/-- Number of read requests (write requests, if `rd` is false) for resource `q`. -/
def numOf (q : ℕ) (rd : Bool) (reqs : List Request) : ℕ :=
  ((reqs.filter (fun r => decide (r.resId = q) && (r.isRead == rd))).map (fun r => r.num)).sum

theorem mergeEntry_counts (q : ℕ) (reqs : List Request) : ∀ c,
    (mergeEntry q c reqs).resId = c.resId ∧
    (mergeEntry q c reqs).numReads = c.numReads + numOf q true reqs ∧
    (mergeEntry q c reqs).numWrites = c.numWrites + numOf q false reqs := by
  induction reqs with
  | nil => intro c; simp [mergeEntry, numOf]
  | cons r reqs ih =>
    intro c
    have e : mergeEntry q c (r :: reqs) = mergeEntry q (if r.resId = q then c.update r else c) reqs := rfl
    obtain ⟨h1, h2, h3⟩ := ih (if r.resId = q then c.update r else c)
    rw [e, h1, h2, h3]
    unfold numOf
    by_cases hq : r.resId = q
    · cases hr : r.isRead <;> simp [hq, hr, RwCount.update, Nat.add_assoc]
    · simp [hq]

theorem mergeEntry_len (q : ℕ) (reqs : List Request) : ∀ c,
    (∀ r ∈ reqs, r.resId = q → r.isRead = true →
      ∃ r' ∈ reqs, r'.resId = q ∧ r'.isRead = true ∧ (mergeEntry q c reqs).rlength = r'.length) ∧
    (∀ r ∈ reqs, r.resId = q → r.isRead = false →
      ∃ r' ∈ reqs, r'.resId = q ∧ r'.isRead = false ∧ (mergeEntry q c reqs).wlength = r'.length) ∧
    ((∀ r ∈ reqs, r.resId = q → r.isRead = false) → (mergeEntry q c reqs).rlength = c.rlength) ∧
    ((∀ r ∈ reqs, r.resId = q → r.isRead = true) → (mergeEntry q c reqs).wlength = c.wlength) := by
  induction reqs with
  | nil => intro c; simp [mergeEntry]
  | cons x reqs ih =>
    intro c
    have e : mergeEntry q c (x :: reqs) = mergeEntry q (if x.resId = q then c.update x else c) reqs := rfl
    obtain ⟨h1, h2, h3, h4⟩ := ih (if x.resId = q then c.update x else c)
    rw [e]
    refine ⟨?_, ?_, ?_, ?_⟩
    · intro r hr hq hrd
      by_cases hex : ∃ y ∈ reqs, y.resId = q ∧ y.isRead = true
      · obtain ⟨y, y1, y2, y3⟩ := hex
        obtain ⟨r', a, b⟩ := h1 y y1 y2 y3
        exact ⟨r', List.mem_cons_of_mem _ a, b⟩
      · push Not at hex
        have hrx : r = x := by
          rcases List.mem_cons.mp hr with rfl | hr
          · rfl
          · exact absurd hrd (hex r hr hq)
        subst hrx
        refine ⟨r, List.mem_cons_self, hq, hrd, ?_⟩
        rw [h3 (fun y hy hyq => by simpa using hex y hy hyq), if_pos hq]
        simp [RwCount.update, hrd]
    · intro r hr hq hrd
      by_cases hex : ∃ y ∈ reqs, y.resId = q ∧ y.isRead = false
      · obtain ⟨y, y1, y2, y3⟩ := hex
        obtain ⟨r', a, b⟩ := h2 y y1 y2 y3
        exact ⟨r', List.mem_cons_of_mem _ a, b⟩
      · push Not at hex
        have hrx : r = x := by
          rcases List.mem_cons.mp hr with rfl | hr
          · rfl
          · exact absurd hrd (hex r hr hq)
        subst hrx
        refine ⟨r, List.mem_cons_self, hq, hrd, ?_⟩
        rw [h4 (fun y hy hyq => by simpa using hex y hy hyq), if_pos hq]
        simp [RwCount.update, hrd]
    · intro h
      rw [h3 (fun r hr => h r (List.mem_cons_of_mem _ hr))]
      by_cases hq : x.resId = q
      · have := h x List.mem_cons_self hq
        simp [hq, RwCount.update, this]
      · simp [hq]
    · intro h
      rw [h4 (fun r hr => h r (List.mem_cons_of_mem _ hr))]
      by_cases hq : x.resId = q
      · have := h x List.mem_cons_self hq
        simp [hq, RwCount.update, this]
      · simp [hq]

/-- The entry of the merged list. -/
theorem entry_facts (reqs : List Request) (q : ℕ) :
    (entry (mergeRw reqs) q).resId = q ∧ (entry (mergeRw reqs) q).numReads = numOf q true reqs ∧
    (entry (mergeRw reqs) q).numWrites = numOf q false reqs := by
  rw [entry_mergeRw]
  simpa using mergeEntry_counts q reqs { resId := q }

/-- Sum over the merged entries. -/
theorem sum_entries (l : List RwCount) (f : RwCount → ℕ) :
    (l.map f).sum = ∑ q ∈ Finset.range l.length, f (entry l q) := by
  have : ∀ (l : List RwCount) (d : ℕ → RwCount), (l.map f).sum = ∑ q ∈ Finset.range l.length, f (l.getD q (d q)) := by
    intro l
    induction l with
    | nil => intro d; simp
    | cons a l ih =>
      intro d
      rw [List.length_cons, Finset.sum_range_succ', List.map_cons, List.sum_cons, ih (fun q => d (q + 1))]
      simp [Nat.add_comm]
  exact this l _

/-! ### The requests of a job -/

variable {info : Info} {procs irqCpu : ℕ} {irq : ℤ} {R : RwRun info.length}

/-- The requests in the order of their indices. -/
def slots (reqs : List Request) (p : Request → Bool) : Finset (ℕ × ℕ) :=
  (Finset.range reqs.length).biUnion (fun x =>
    match reqs[x]? with
    | none => ∅
    | some r => if p r then (Finset.range r.num).image (fun a => (x, a)) else ∅)

theorem mem_slots {reqs : List Request} {p : Request → Bool} {x a : ℕ} :
    (x, a) ∈ slots reqs p ↔ ∃ r, reqs[x]? = some r ∧ p r = true ∧ a < r.num := by
  unfold slots
  simp only [Finset.mem_biUnion, Finset.mem_range]
  constructor
  · rintro ⟨y, hy, h⟩
    rw [List.getElem?_eq_getElem hy] at h
    simp only at h
    by_cases hp : p reqs[y] = true
    · rw [if_pos hp] at h
      obtain ⟨b, hb, he⟩ := Finset.mem_image.mp h
      simp only [Prod.mk.injEq] at he
      obtain ⟨rfl, rfl⟩ := he
      exact ⟨_, List.getElem?_eq_getElem hy, hp, Finset.mem_range.mp hb⟩
    · rw [if_neg hp] at h; simp at h
  · rintro ⟨r, h1, h2, h3⟩
    have hx : x < reqs.length := by
      by_contra hc
      rw [List.getElem?_eq_none (by omega)] at h1
      exact absurd h1 (by simp)
    refine ⟨x, hx, ?_⟩
    rw [h1]
    simp only [h2, if_true]
    exact Finset.mem_image.mpr ⟨a, Finset.mem_range.mpr h3, rfl⟩

theorem card_slots (reqs : List Request) (p : Request → Bool) :
    (slots reqs p).card ≤ ((reqs.filter p).map (fun r => r.num)).sum := by
  refine le_trans Finset.card_biUnion_le ?_
  have : ∀ (f : ℕ → ℕ) (l : List Request), (∀ x r, l[x]? = some r → f x ≤ if p r then r.num else 0) →
      ∑ x ∈ Finset.range l.length, f x ≤ ((l.filter p).map (fun r => r.num)).sum := by
    intro f l
    induction l generalizing f with
    | nil => intro _; simp
    | cons r l ih =>
      intro hf
      rw [List.length_cons, Finset.sum_range_succ']
      have h0 := hf 0 r rfl
      have h1 := ih (fun x => f (x + 1)) (fun x r' hx => hf (x + 1) r' (by simpa using hx))
      by_cases hp : p r = true
      · rw [List.filter_cons_of_pos hp, List.map_cons, List.sum_cons]
        rw [if_pos hp] at h0
        omega
      · rw [List.filter_cons_of_neg hp]
        rw [if_neg hp] at h0
        omega
  apply this
  intro x r hx
  rw [hx]
  simp only
  split
  · refine le_trans Finset.card_image_le ?_; simp
  · simp

open Classical in
/-- The issued requests of job `j` for resource `q`. -/
noncomputable def issuedFor (R : RwRun info.length) (j : Job info.length) (q : ℕ) : Finset (Section info.length) :=
  ((slots (info.get j.1).requests (fun r => decide (r.resId = q))).image (fun p => (⟨j, p.1, p.2⟩ : Section _))).filter
    (fun s => R.issued s)

theorem counts_issuedFor (h : RwLegal procs irq irqCpu (system info) R) (j : Job info.length) (q : ℕ) :
    Counts R j q (numOf q true (info.get j.1).requests) (numOf q false (info.get j.1).requests) (issuedFor R j q) := by
  classical
  have key : ∀ (F : Finset (Section info.length)) (rd : Bool), F ⊆ issuedFor R j q →
      (∀ k ∈ F, R.For (system info) k q rd) → F.card ≤ numOf q rd (info.get j.1).requests := by
    intro F rd hF hrd
    refine le_trans ?_ (card_slots _ _)
    apply Finset.card_le_card_of_injOn (fun s => (s.idx, s.inst))
    · intro s hs
      have hj : s.job = j := by
        have := hF hs
        unfold issuedFor at this
        obtain ⟨p, _, rfl⟩ := Finset.mem_image.mp (Finset.mem_filter.mp this).1
        rfl
      obtain ⟨hi, a, h1, h2, h3⟩ := hrd s hs
      obtain ⟨b, h4, h5⟩ := h.declared s hi
      rw [h1] at h4; cases h4
      obtain ⟨r, h6, h7⟩ := system_req h1
      rw [hj] at h6
      subst h7
      refine mem_slots.mpr ⟨r, h6, ?_, h5⟩
      simp only at h2 h3
      simp [h2, h3]
    · intro a ha b hb hab
      have hj : ∀ s ∈ F, s.job = j := by
        intro s hs
        have := hF hs
        unfold issuedFor at this
        obtain ⟨p, _, rfl⟩ := Finset.mem_image.mp (Finset.mem_filter.mp this).1
        rfl
      have ha' := hj a ha
      have hb' := hj b hb
      obtain ⟨aj, ai, an⟩ := a
      obtain ⟨bj, bi, bn⟩ := b
      simp only [Prod.mk.injEq] at hab ha' hb'
      rw [ha', hb', hab.1, hab.2]
  refine ⟨?_, ?_, fun F hF h' => key F true hF h', fun F hF h' => key F false hF h'⟩
  · intro k hk
    unfold issuedFor at hk
    obtain ⟨p, _, rfl⟩ := Finset.mem_image.mp (Finset.mem_filter.mp hk).1
    rfl
  · intro k hk
    unfold issuedFor at hk
    obtain ⟨hk1, hk2⟩ := Finset.mem_filter.mp hk
    obtain ⟨⟨x, a⟩, hp, rfl⟩ := Finset.mem_image.mp hk1
    obtain ⟨r, h1, h2, _⟩ := mem_slots.mp hp
    refine ⟨r.isRead, hk2, ⟨r.resId, r.num, r.length, r.isRead⟩, ?_, by simpa using h2, rfl⟩
    change ((info.get j.1).requests.map _)[x]? = _
    rw [List.getElem?_map, h1]; rfl

/-- The waiting time of a job is the sum over the resources. -/
theorem waiting_le (R : RwRun info.length) (j : Job info.length) (g : ℕ → ℕ)
    (hg : ∀ q, ∑ k ∈ issuedFor R j q, (R.acquire k - R.enter k) ≤ g q) :
    R.waiting (system info) j ≤ ∑ q ∈ Finset.range (mergeRw (info.get j.1).requests).length, g q := by
  classical
  refine le_trans ?_ (Finset.sum_le_sum (fun q _ => hg q))
  have hdisj : ∀ q ∈ Finset.range (mergeRw (info.get j.1).requests).length,
      ∀ q' ∈ Finset.range (mergeRw (info.get j.1).requests).length, q ≠ q' →
      Disjoint (issuedFor R j q) (issuedFor R j q') := by
    intro q _ q' _ hne
    rw [Finset.disjoint_left]
    intro s hs hs'
    unfold issuedFor at hs hs'
    obtain ⟨⟨x, a⟩, hp, he⟩ := Finset.mem_image.mp (Finset.mem_filter.mp hs).1
    obtain ⟨⟨x', a'⟩, hp', he'⟩ := Finset.mem_image.mp (Finset.mem_filter.mp hs').1
    obtain ⟨r, h1, h2, _⟩ := mem_slots.mp hp
    obtain ⟨r', h1', h2', _⟩ := mem_slots.mp hp'
    rw [← he'] at he
    simp only [Section.mk.injEq, true_and] at he
    rw [he.1, h1'] at h1
    cases h1
    simp only [decide_eq_true_eq] at h2 h2'
    exact hne (h2.symm.trans h2')
  rw [← Finset.sum_biUnion hdisj]
  unfold RwRun.waiting
  -- all requests as a set
  let A : Finset (Section info.length) :=
    (Finset.univ : Finset (Fin ((system info).reqs j.1).length)).biUnion (fun q =>
      ((Finset.range (((system info).reqs j.1).get q).num).image (fun a => (⟨j, q, a⟩ : Section _))).filter
        (fun s => R.issued s))
  have hA : ∑ q : Fin ((system info).reqs j.1).length, ∑ a ∈ Finset.range (((system info).reqs j.1).get q).num,
      (if R.issued ⟨j, q, a⟩ then R.acquire ⟨j, q, a⟩ - R.enter ⟨j, q, a⟩ else 0) =
      ∑ s ∈ A, (R.acquire s - R.enter s) := by
    rw [Finset.sum_biUnion]
    · apply Finset.sum_congr rfl
      intro q _
      rw [Finset.sum_filter, Finset.sum_image]
      intro a _ b _ hab
      simpa using hab
    · intro q _ q' _ hne
      change Disjoint _ _
      rw [Finset.disjoint_left]
      intro s hs hs'
      obtain ⟨a, _, ha⟩ := Finset.mem_image.mp (Finset.mem_filter.mp hs).1
      obtain ⟨b, _, hb⟩ := Finset.mem_image.mp (Finset.mem_filter.mp hs').1
      rw [← hb] at ha
      simp only [Section.mk.injEq, true_and] at ha
      exact hne (Fin.ext ha.1)
  rw [hA]
  apply Finset.sum_le_sum_of_subset
  intro s hs
  obtain ⟨q, _, hs⟩ := Finset.mem_biUnion.mp hs
  obtain ⟨hs1, hs2⟩ := Finset.mem_filter.mp hs
  obtain ⟨a, ha, rfl⟩ := Finset.mem_image.mp hs1
  have hq : (q : ℕ) < (info.get j.1).requests.length := by
    have := q.2
    unfold system at this
    simpa using this
  have hr : (info.get j.1).requests[(q : ℕ)]? = some (info.get j.1).requests[(q : ℕ)] := List.getElem?_eq_getElem hq
  refine Finset.mem_biUnion.mpr ⟨((info.get j.1).requests[(q : ℕ)]).resId, ?_, ?_⟩
  · exact Finset.mem_range.mpr (lt_mergeRw (List.getElem_mem hq))
  · unfold issuedFor
    refine Finset.mem_filter.mpr ⟨Finset.mem_image.mpr ⟨((q : ℕ), a), mem_slots.mpr ⟨_, hr, by simp, ?_⟩, rfl⟩, hs2⟩
    have e : ((system info).reqs j.1).get q = ⟨_, _, _, _⟩ := List.getElem_map ..
    rw [Finset.mem_range, e] at ha
    exact ha

end Verif.SR.Rw
