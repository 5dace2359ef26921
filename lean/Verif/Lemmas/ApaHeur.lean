/-
The heuristics of `schedcat/mapping/apa.py` end, and what they do is a sequence of
placements and splits.
-/
import Verif.Lemmas.ApaRun

namespace Verif.Apa
open Verif.Native Verif.Spec

/-- A computation that ends with a result once it is given enough fuel. -/
def Ends {α : Type} (f : ℕ → Option α) : Prop := ∃ N a, ∀ fuel ≥ N, f fuel = some a

theorem Ends.bind {α β : Type} {f : ℕ → Option α} {g : ℕ → α → Option β} (hf : Ends f)
    (hg : ∀ fuel a, f fuel = some a → Ends (fun n => g n a)) : Ends (fun n => (f n).bind (g n)) := by
  obtain ⟨N, a, hN⟩ := hf
  obtain ⟨M, b, hM⟩ := hg N a (hN N le_rfl)
  refine ⟨max N M, b, fun fuel hf => ?_⟩
  show (f fuel).bind (g fuel) = some b
  rw [hN fuel (by omega), Option.bind_some]
  exact hM fuel (by omega)

theorem Ends.pure {α : Type} (a : α) : Ends (fun _ => some a) := ⟨0, a, fun _ _ => rfl⟩

theorem Ends.mapM {α β : Type} {f : ℕ → α → Option β} {l : List α} (h : ∀ a ∈ l, Ends (fun n => f n a)) :
    Ends (fun n => l.mapM (f n)) := by
  induction l with
  | nil => exact Ends.pure []
  | cons a l ih =>
    obtain ⟨N, b, hN⟩ := h a (by simp)
    obtain ⟨M, bs, hM⟩ := ih (fun a ha => h a (by simp [ha]))
    simp only at hN hM
    refine ⟨max N M, b :: bs, fun fuel hf => ?_⟩
    simp only [List.mapM_cons]
    rw [hN fuel (by omega), hM fuel (by omega)]
    rfl

theorem mapM_forall₂ {α β : Type} {f : α → Option β} {l : List α} {r : List β} (h : l.mapM f = some r) :
    List.Forall₂ (fun a b => f a = some b) l r := by
  induction l generalizing r with
  | nil => simp at h; subst h; exact .nil
  | cons a l ih =>
    simp only [List.mapM_cons, Option.bind_eq_bind, Option.bind_eq_some_iff, Option.pure_def,
      Option.some.injEq] at h
    obtain ⟨b, hb, bs, hbs, rfl⟩ := h
    exact .cons hb (ih hbs)

theorem forall₂_mem_left {α β : Type} {R : α → β → Prop} {l : List α} {r : List β}
    (h : List.Forall₂ R l r) {a : α} (ha : a ∈ l) : ∃ b ∈ r, R a b := by
  induction h with
  | nil => simp at ha
  | cons h1 _ ih =>
    rcases List.mem_cons.1 ha with rfl | h2
    · exact ⟨_, by simp, h1⟩
    · obtain ⟨b, hb, hr⟩ := ih h2
      exact ⟨b, by simp [hb], hr⟩

theorem forall₂_mem_right {α β : Type} {R : α → β → Prop} {l : List α} {r : List β}
    (h : List.Forall₂ R l r) {b : β} (hb : b ∈ r) : ∃ a ∈ l, R a b := by
  induction h with
  | nil => simp at hb
  | cons h1 _ ih =>
    rcases List.mem_cons.1 hb with rfl | h2
    · exact ⟨_, by simp, h1⟩
    · obtain ⟨a, ha, hr⟩ := ih h2
      exact ⟨a, by simp [ha], hr⟩

theorem proper_append {ts : List ATask} {t : ATask} (h : ∀ u ∈ ts, Proper u) (ht : Proper t) :
    ∀ u ∈ ts ++ [t], Proper u := by
  intro u hu
  rcases List.mem_append.1 hu with h1 | h1
  · exact h u h1
  · rw [List.mem_singleton.1 h1]; exact ht

/-! ### Worst fit -/

theorem candidate_ends {asg : Assign} (hg : Good asg) {t : ATask} (ht : Proper t) (core : ℕ) :
    Ends (fun fuel => candidate fuel asg t core) := by
  have hp := proper_append (hg core).1 ht
  obtain ⟨l, _, hl⟩ := density_some hp
  unfold candidate
  refine Ends.bind (qpaItFits_spec hp).1 (fun fuel b _ => ?_)
  cases b
  · exact Ends.pure _
  · simp only [if_true, hl]
    exact Ends.pure _

theorem candidate_spec {asg : Assign} (hg : Good asg) {t : ATask} (ht : Proper t) {core fuel : ℕ}
    {r : Option (ℚ × ℕ)} (h : candidate fuel asg t core = some r) :
    (r = none → ¬ Ok (asg core ++ [t])) ∧ ∀ d c, r = some (d, c) → c = core ∧ Ok (asg core ++ [t]) := by
  have hp := proper_append (hg core).1 ht
  have hs := (qpaItFits_spec hp).2
  unfold candidate at h
  simp only [Option.bind_eq_bind, Option.bind_eq_some_iff] at h
  obtain ⟨b, hb, h⟩ := h
  have := hs fuel b hb
  cases b with
  | false =>
    simp at h
    subst h
    refine ⟨fun _ hok => ?_, fun d c hc => by simp at hc⟩
    exact absurd (this.2 hok) (by simp)
  | true =>
    simp only [if_true, Option.bind_eq_some_iff, Option.pure_def, Option.some.injEq] at h
    obtain ⟨d, _, rfl⟩ := h
    refine ⟨fun h => by simp at h, fun d' c hc => ?_⟩
    simp only [Option.some.injEq, Prod.mk.injEq] at hc
    exact ⟨hc.2.symm, this.1 rfl⟩

theorem minCandidate_none {l : List (ℚ × ℕ)} (h : minCandidate l = none) : l = [] := by
  cases l with
  | nil => rfl
  | cons c cs =>
    unfold minCandidate at h
    split at h <;> cases h

theorem minCandidate_mem {l : List (ℚ × ℕ)} {x : ℚ × ℕ} (h : minCandidate l = some x) : x ∈ l := by
  induction l generalizing x with
  | nil => cases h
  | cons c cs ih =>
    unfold minCandidate at h
    split at h
    · simp only [Option.some.injEq] at h; simp [h]
    · rename_i d hd
      simp only [Option.some.injEq] at h
      split at h
      · simp [h]
      · rw [← h]; simp [ih hd]

theorem tryAssign_ends {asg : Assign} (hg : Good asg) {t : ATask} (ht : Proper t) :
    Ends (fun fuel => tryAssignWorstFit fuel asg t) := by
  unfold tryAssignWorstFit
  refine Ends.bind (Ends.mapM (fun c _ => candidate_ends hg ht c)) (fun fuel cs _ => ?_)
  cases minCandidate (cs.filterMap id) <;> exact Ends.pure _

theorem tryAssign_spec {asg : Assign} (hg : Good asg) {t : ATask} (ht : Proper t) {fuel : ℕ}
    {r : Option Assign} (h : tryAssignWorstFit fuel asg t = some r) :
    (r = none → ∀ c ∈ t.affinity, ¬ Ok (asg c ++ [t])) ∧
    ∀ a, r = some a → ∃ c ∈ t.affinity, Ok (asg c ++ [t]) ∧ a = put asg c t := by
  unfold tryAssignWorstFit at h
  simp only [Option.bind_eq_bind, Option.bind_eq_some_iff] at h
  obtain ⟨cs, hcs, h⟩ := h
  have hf := mapM_forall₂ hcs
  cases hm : minCandidate (cs.filterMap id) with
  | none =>
    rw [hm] at h
    simp only [Option.pure_def, Option.some.injEq] at h
    subst h
    refine ⟨fun _ c hc => ?_, fun a ha => by simp at ha⟩
    obtain ⟨b, hb, hcb⟩ := forall₂_mem_left hf hc
    have hnil := minCandidate_none hm
    have : b = none := by
      cases b with
      | none => rfl
      | some v =>
        have : v ∈ cs.filterMap id := List.mem_filterMap.2 ⟨some v, hb, rfl⟩
        rw [hnil] at this
        simp at this
    exact (candidate_spec hg ht hcb).1 this
  | some best =>
    rw [hm] at h
    simp only [Option.pure_def, Option.some.injEq] at h
    subst h
    refine ⟨fun h => by simp at h, fun a ha => ?_⟩
    simp only [Option.some.injEq] at ha
    obtain ⟨b, hb, hb2⟩ := List.mem_filterMap.1 (minCandidate_mem hm)
    simp only [id] at hb2
    subst hb2
    obtain ⟨c, hc, hcb⟩ := forall₂_mem_right hf hb
    obtain ⟨e, hok⟩ := (candidate_spec hg ht hcb).2 best.1 best.2 rfl
    exact ⟨c, hc, hok, by rw [← ha, e]⟩

/-- A split on processor `c`, leaving `t2`. -/
def IsSplit (asg : Assign) (t : ATask) (k : ℕ) (asg' : Assign) (t2 : ATask) : Prop :=
  ∃ c ∈ t.affinity, ∃ w, 0 < w ∧ w < t.cost ∧ k ≤ w ∧ k ≤ t.cost - w ∧
    Ok (asg c ++ [(splitTask t w).1]) ∧ asg' = put asg c (splitTask t w).1 ∧ t2 = (splitTask t w).2

theorem splitAt_spec {asg : Assign} (hg : Good asg) {t : ATask} (ht : Proper t) {k fuel wcet core : ℕ}
    (hk : 2 * k ≤ t.cost) (hc : core ∈ t.affinity) (hno : ¬ Ok (asg core ++ [t]))
    (hw : qpaSplitOffChunk fuel (asg core) t = some wcet) :
    ∃ r, splitAt asg t k core wcet = some r ∧ ∀ asg' t2, r = some (asg', t2) → IsSplit asg t k asg' t2 := by
  obtain ⟨c1, c2, c3⟩ := (chunk_spec (hg core).1 (hg core).2 ht).2 fuel wcet hw
  have hlt : wcet < t.cost := lt_of_le_of_ne c1 (fun e => hno (c3 e))
  unfold splitAt
  by_cases h : wcet ≠ 0 ∧ k ≤ wcet
  · rw [if_pos h]
    have h2 : k ≤ min wcet (t.cost - k) := by omega
    simp only [if_pos h2]
    refine ⟨_, rfl, fun asg' t2 he => ?_⟩
    simp only [Option.some.injEq, Prod.mk.injEq] at he
    obtain ⟨rfl, rfl⟩ := he
    have hpos : 0 < t.cost := ht.1
    refine ⟨core, hc, min wcet (t.cost - k), by omega, by omega, h2, by omega, ?_, rfl, rfl⟩
    exact c2 _ (by omega) (by omega)
  · rw [if_neg h]
    exact ⟨none, rfl, fun _ _ he => by simp at he⟩

theorem splitWorstLoop_spec {asg : Assign} (hg : Good asg) {t : ATask} (ht : Proper t) {k : ℕ}
    (hk : 2 * k ≤ t.cost) (hno : ∀ c ∈ t.affinity, ¬ Ok (asg c ++ [t])) (cores : List ℕ)
    (hc : ∀ c ∈ cores, c ∈ t.affinity) :
    Ends (fun fuel => splitWorstLoop fuel asg t k cores) ∧
    ∀ fuel asg' t2, splitWorstLoop fuel asg t k cores = some (some (asg', t2)) → IsSplit asg t k asg' t2 := by
  induction cores with
  | nil => exact ⟨Ends.pure none, fun fuel a t2 h => by simp [splitWorstLoop] at h⟩
  | cons core cores ih =>
    obtain ⟨i1, i2⟩ := ih (fun c h => hc c (by simp [h]))
    have hcore := hc core (by simp)
    constructor
    · unfold splitWorstLoop
      refine Ends.bind (chunk_spec (hg core).1 (hg core).2 ht).1 (fun fuel w hw => ?_)
      obtain ⟨r, hr, _⟩ := splitAt_spec hg ht hk hcore (hno core hcore) hw
      simp only [hr]
      cases r with
      | none => exact i1
      | some v => exact Ends.pure _
    · intro fuel asg' t2 h
      unfold splitWorstLoop at h
      simp only [Option.bind_eq_bind, Option.bind_eq_some_iff] at h
      obtain ⟨w, hw, r, hr, h⟩ := h
      obtain ⟨r', hr', hs⟩ := splitAt_spec hg ht hk hcore (hno core hcore) hw
      rw [hr, Option.some.injEq] at hr'
      subst hr'
      cases r with
      | none => exact i2 fuel asg' t2 h
      | some v =>
        simp only [Option.pure_def, Option.some.injEq] at h
        exact hs asg' t2 (by rw [h])

theorem density_good {asg : Assign} (hg : Good asg) (c : ℕ) : ∃ d, density (asg c) = some d := by
  obtain ⟨l, _, h⟩ := density_some (hg c).1
  exact ⟨_, h⟩

theorem trySplitWorst_spec {ord : Order} (ho : ∀ l, (ord.cores l).Perm l) {asg : Assign} (hg : Good asg)
    {t : ATask} (ht : Proper t) {k : ℕ} (hk : 2 * k ≤ t.cost)
    (hno : ∀ c ∈ t.affinity, ¬ Ok (asg c ++ [t])) :
    Ends (fun fuel => trySplitWorstFit ord fuel asg t k) ∧
    ∀ fuel asg' t2, trySplitWorstFit ord fuel asg t k = some (some (asg', t2)) → IsSplit asg t k asg' t2 := by
  obtain ⟨i1, i2⟩ := splitWorstLoop_spec hg ht hk hno
    ((ord.cores t.affinity).insertionSort
      (fun a b => (density (asg a)).getD 0 ≤ (density (asg b)).getD 0))
    (fun c hc => (ho _).mem_iff.1 ((List.perm_insertionSort _ _).mem_iff.1 hc))
  have hd : Ends (fun _ => t.affinity.mapM (fun c => density (asg c))) :=
    Ends.mapM (f := fun _ c => density (asg c)) (fun c _ => by
      obtain ⟨d, hd⟩ := density_good hg c
      exact ⟨0, d, fun _ _ => hd⟩)
  constructor
  · unfold trySplitWorstFit
    exact Ends.bind hd (fun _ _ _ => i1)
  · intro fuel asg' t2 h
    unfold trySplitWorstFit at h
    simp only [Option.bind_eq_bind, Option.bind_eq_some_iff] at h
    obtain ⟨_, _, h⟩ := h
    exact i2 fuel asg' t2 h

theorem maxChunk_mem {P : ℕ × Option ℕ → Prop} (l : List (ℕ × Option ℕ)) (h : ∀ v ∈ l, P v) :
    ∀ a, P a → P (l.foldl maxChunk a) := by
  induction l with
  | nil => exact fun a ha => ha
  | cons v l ih =>
    intro a ha
    refine ih (fun v hv => h v (by simp [hv])) _ ?_
    have hv := h v (by simp)
    unfold maxChunk
    split
    · exact hv
    · exact ha
    · split
      · exact hv
      · exact ha

theorem trySplitMax_spec {ord : Order} (ho : ∀ l, (ord.cores l).Perm l) {asg : Assign} (hg : Good asg)
    {t : ATask} (ht : Proper t) {k : ℕ} (hk : 2 * k ≤ t.cost)
    (hno : ∀ c ∈ t.affinity, ¬ Ok (asg c ++ [t])) :
    Ends (fun fuel => trySplitMaxChunk ord fuel asg t k) ∧
    ∀ fuel asg' t2, trySplitMaxChunk ord fuel asg t k = some (some (asg', t2)) → IsSplit asg t k asg' t2 := by
  have key : ∀ fuel vals, (ord.cores t.affinity).mapM (fun c =>
      (qpaSplitOffChunk fuel (asg c) t).map (fun w => (w, some c))) = some vals →
      ∀ wcet core, vals.foldl maxChunk (0, none) = (wcet, some core) →
        core ∈ t.affinity ∧ qpaSplitOffChunk fuel (asg core) t = some wcet := by
    intro fuel vals hv wcet core hm
    have hf := mapM_forall₂ hv
    have := maxChunk_mem (P := fun v => ∀ c, v.2 = some c → c ∈ t.affinity ∧
      qpaSplitOffChunk fuel (asg c) t = some v.1) vals ?_ (0, none) (fun c hc => by simp at hc)
    · rw [hm] at this
      exact this core rfl
    · intro v hv c hc
      obtain ⟨c', hc', he⟩ := forall₂_mem_right hf hv
      rw [Option.map_eq_some_iff] at he
      obtain ⟨w, hw, rfl⟩ := he
      simp only [Option.some.injEq] at hc
      subst hc
      exact ⟨(ho _).mem_iff.1 hc', hw⟩
  constructor
  · unfold trySplitMaxChunk
    refine Ends.bind (Ends.mapM (f := fun fuel c =>
      (qpaSplitOffChunk fuel (asg c) t).map (fun w => (w, some c))) (fun c _ => ?_)) (fun fuel vals hv => ?_)
    · obtain ⟨N, r, h⟩ := (chunk_spec (hg c).1 (hg c).2 ht).1
      exact ⟨N, (r, some c), fun fuel hf => by simp only [h fuel hf]; rfl⟩
    · rcases hm : vals.foldl maxChunk (0, none) with ⟨wcet, _ | core⟩
      · exact Ends.pure _
      · obtain ⟨k1, k2⟩ := key fuel vals hv wcet core hm
        obtain ⟨r, hr, _⟩ := splitAt_spec hg ht hk k1 (hno core k1) k2
        simp only [hr]
        exact Ends.pure _
  · intro fuel asg' t2 h
    unfold trySplitMaxChunk at h
    simp only [Option.bind_eq_bind, Option.bind_eq_some_iff] at h
    obtain ⟨vals, hv, h⟩ := h
    rcases hm : vals.foldl maxChunk (0, none) with ⟨wcet, _ | core⟩
    · rw [hm] at h; simp at h
    · rw [hm] at h
      obtain ⟨k1, k2⟩ := key fuel vals hv wcet core hm
      obtain ⟨r, hr, hs⟩ := splitAt_spec hg ht hk k1 (hno core k1) k2
      simp only [hr, Option.some.injEq] at h
      exact hs asg' t2 h

/-- Either way of splitting. -/
def trySplit (ord : Order) (fuel : ℕ) (o : Options) (asg : Assign) (t : ATask) :
    Option (Option (Assign × ATask)) :=
  if o.maxChunkSplit then trySplitMaxChunk ord fuel asg t o.minChunk
  else trySplitWorstFit ord fuel asg t o.minChunk

theorem trySplit_spec {ord : Order} (ho : ∀ l, (ord.cores l).Perm l) {asg : Assign} (hg : Good asg)
    {t : ATask} (ht : Proper t) {o : Options} (hk : 2 * o.minChunk ≤ t.cost)
    (hno : ∀ c ∈ t.affinity, ¬ Ok (asg c ++ [t])) :
    Ends (fun fuel => trySplit ord fuel o asg t) ∧
    ∀ fuel asg' t2, trySplit ord fuel o asg t = some (some (asg', t2)) →
      IsSplit asg t o.minChunk asg' t2 := by
  unfold trySplit
  cases o.maxChunkSplit
  · exact trySplitWorst_spec ho hg ht hk hno
  · exact trySplitMax_spec ho hg ht hk hno

theorem wfPass_cons (ord : Order) (fuel : ℕ) (o : Options) (t : ATask) (rest un : List ATask) (asg : Assign) :
    wfPass ord fuel o (t :: rest) un asg =
      (tryAssignWorstFit fuel asg t).bind (fun r =>
        match r with
        | some asg' => wfPass ord fuel o rest (un.erase t) asg'
        | none =>
          if o.withSplits && decide (2 * o.minChunk ≤ t.cost) then
            (trySplit ord fuel o asg t).bind (fun r =>
              match r with
              | some (asg', t2) => some (un.erase t ++ [t2], asg', true)
              | none => wfPass ord fuel o rest un asg)
          else wfPass ord fuel o rest un asg) := rfl

theorem IsSplit.reach {k : ℕ} {asg asg' : Assign} {t t2 : ATask} {un : List ATask} (hu : t ∈ un)
    (h : IsSplit asg t k asg' t2) : Reach k true asg un (un.erase t ++ [t2]) asg' := by
  obtain ⟨c, hc, w, h0, hw, h1, h2, hok, rfl, rfl⟩ := h
  refine .split (.start (List.Perm.refl un)) rfl (List.perm_cons_erase hu) ?_ hc h0 hw h1 h2 hok
  exact (List.perm_append_comm).trans (List.Perm.refl _)

theorem totalCost_perm {a b : List ATask} (h : a.Perm b) :
    (a.map ATask.cost).sum = (b.map ATask.cost).sum := (h.map _).sum_eq

theorem IsSplit.cost {k : ℕ} {asg asg' : Assign} {t t2 : ATask} {un : List ATask} (hu : t ∈ un)
    (h : IsSplit asg t k asg' t2) :
    ((un.erase t ++ [t2]).map ATask.cost).sum < (un.map ATask.cost).sum := by
  obtain ⟨c, hc, w, h0, hw, h1, h2, hok, rfl, rfl⟩ := h
  rw [totalCost_perm (List.perm_cons_erase hu)]
  simp [splitTask]
  omega

/-- Adding tasks does not make a processor schedulable. -/
theorem not_ok_mono {a b : List ATask} {u : ATask} (h : ∀ x, dem a x ≤ dem b x) (hn : ¬ Ok (a ++ [u])) :
    ¬ Ok (b ++ [u]) := by
  intro hb
  apply hn
  intro x
  have := hb x
  have := h x
  rw [dem_append] at *
  omega

theorem wfPass_ends {ord : Order} (ho : ∀ l, (ord.cores l).Perm l) (o : Options) (order : List ATask) :
    ∀ (un : List ATask) (asg : Assign), (∀ t ∈ order, Proper t) → Good asg →
      Ends (fun fuel => wfPass ord fuel o order un asg) := by
  induction order with
  | nil => exact fun un asg _ _ => Ends.pure _
  | cons t rest ih =>
    intro un asg hp hg
    have ht := hp t (by simp)
    have hrest : ∀ t ∈ rest, Proper t := fun t h => hp t (by simp [h])
    simp only [wfPass_cons]
    refine Ends.bind (tryAssign_ends hg ht) (fun fuel r hr => ?_)
    obtain ⟨a1, a2⟩ := tryAssign_spec hg ht hr
    cases r with
    | some asg' =>
      obtain ⟨c, hc, hok, rfl⟩ := a2 asg' rfl
      exact ih _ _ hrest (good_put hg ht hok)
    | none =>
      simp only
      split
      · rename_i hcond
        rw [Bool.and_eq_true, decide_eq_true_eq] at hcond
        obtain ⟨s1, s2⟩ := trySplit_spec ho hg ht hcond.2 (a1 rfl)
        refine Ends.bind s1 (fun fuel r _ => ?_)
        cases r with
        | none => exact ih _ _ hrest hg
        | some v => exact Ends.pure _
      · exact ih _ _ hrest hg

theorem wfPass_spec {ord : Order} (ho : ∀ l, (ord.cores l).Perm l) (o : Options) {fuel : ℕ}
    (order : List ATask) :
    ∀ (un failed : List ATask) (asg : Assign) (un' : List ATask) (asg' : Assign) (again : Bool),
      un.Perm (order ++ failed) → (∀ t ∈ order, Proper t) → Good asg →
      (∀ u ∈ failed, ∀ c ∈ u.affinity, ¬ Ok (asg c ++ [u])) →
      wfPass ord fuel o order un asg = some (un', asg', again) →
      Reach o.minChunk o.withSplits asg un un' asg' ∧
      (un'.map ATask.cost).sum ≤ (un.map ATask.cost).sum ∧
      (again = true → (un'.map ATask.cost).sum < (un.map ATask.cost).sum) ∧
      (again = false → ∀ u ∈ un', ∀ c ∈ u.affinity, ¬ Ok (asg' c ++ [u])) := by
  induction order with
  | nil =>
    intro un failed asg un' asg' again hperm _ _ hf h
    simp only [wfPass, Option.some.injEq, Prod.mk.injEq] at h
    obtain ⟨rfl, rfl, rfl⟩ := h
    refine ⟨.start (List.Perm.refl _), le_rfl, fun h => by simp at h, fun _ u hu => ?_⟩
    exact hf u (hperm.mem_iff.1 hu)
  | cons t rest ih =>
    intro un failed asg un' asg' again hperm hp hg hf h
    have ht := hp t (by simp)
    have hrest : ∀ t ∈ rest, Proper t := fun t h => hp t (by simp [h])
    have hmem : t ∈ un := hperm.mem_iff.2 (by simp)
    rw [wfPass_cons, Option.bind_eq_some_iff] at h
    obtain ⟨r, hr, h⟩ := h
    obtain ⟨a1, a2⟩ := tryAssign_spec hg ht hr
    have hfail : ∀ un' asg' again, (∀ c ∈ t.affinity, ¬ Ok (asg c ++ [t])) →
        wfPass ord fuel o rest un asg = some (un', asg', again) →
        Reach o.minChunk o.withSplits asg un un' asg' ∧
        (un'.map ATask.cost).sum ≤ (un.map ATask.cost).sum ∧
        (again = true → (un'.map ATask.cost).sum < (un.map ATask.cost).sum) ∧
        (again = false → ∀ u ∈ un', ∀ c ∈ u.affinity, ¬ Ok (asg' c ++ [u])) := by
      intro un' asg' again hno h
      refine ih un (t :: failed) asg un' asg' again (hperm.trans ?_) hrest hg ?_ h
      · exact List.perm_middle.symm
      · intro u hu
        rcases List.mem_cons.1 hu with rfl | h
        · exact hno
        · exact hf u h
    cases r with
    | some asg1 =>
      obtain ⟨c, hc, hok, rfl⟩ := a2 asg1 rfl
      simp only at h
      have hstep : Reach o.minChunk o.withSplits asg un (un.erase t) (put asg c t) :=
        .place (.start (List.Perm.refl un)) (List.perm_cons_erase hmem) hc hok
      have hperm' : (un.erase t).Perm (rest ++ failed) := by
        have := hperm.erase t
        simpa using this
      obtain ⟨r1, r2, r3, r4⟩ := ih (un.erase t) failed (put asg c t) un' asg' again hperm' hrest
        (good_put hg ht hok) (fun u hu c' hc' => not_ok_mono (fun x => hstep.mono c' x) (hf u hu c' hc')) h
      have hcost : ((un.erase t).map ATask.cost).sum ≤ (un.map ATask.cost).sum := by
        rw [totalCost_perm (List.perm_cons_erase hmem)]; simp
      exact ⟨hstep.trans r1, r2.trans hcost, fun ha => (r3 ha).trans_le hcost, r4⟩
    | none =>
      simp only at h
      split at h
      · rename_i hcond
        rw [Bool.and_eq_true, decide_eq_true_eq] at hcond
        obtain ⟨s1, s2⟩ := trySplit_spec ho hg ht hcond.2 (a1 rfl)
        rw [Option.bind_eq_some_iff] at h
        obtain ⟨r, hr, h⟩ := h
        cases r with
        | none => exact hfail un' asg' again (a1 rfl) h
        | some v =>
          obtain ⟨asg2, t2⟩ := v
          simp only [Option.some.injEq, Prod.mk.injEq] at h
          obtain ⟨rfl, rfl, rfl⟩ := h
          have hs := s2 fuel _ _ hr
          rw [hcond.1]
          exact ⟨hs.reach hmem, (hs.cost hmem).le, fun _ => hs.cost hmem, fun h => by simp at h⟩
      · exact hfail un' asg' again (a1 rfl) h

theorem sorted_spec (aff : ATask → List ℕ) {l r : List ATask} (h : sortedByDifficulty aff l = some r) :
    r.Perm l := by
  unfold sortedByDifficulty at h
  simp only [Option.bind_eq_bind, Option.bind_eq_some_iff, Option.pure_def, Option.some.injEq] at h
  obtain ⟨_, _, rfl⟩ := h
  exact List.perm_insertionSort _ _

theorem sorted_ends (aff : ATask → List ℕ) {l : List ATask} (h : ∀ t ∈ l, Proper t) :
    ∃ r, sortedByDifficulty aff l = some r := by
  obtain ⟨d, hd, _⟩ := density_some h
  unfold sortedByDifficulty
  rw [hd]
  exact ⟨_, rfl⟩

theorem wfLoop_succ (ord : Order) (fuel : ℕ) (o : Options) (rounds : ℕ) (un : List ATask) (asg : Assign) :
    wfLoop ord fuel o (rounds + 1) un asg =
      (sortedByDifficulty ATask.affinity (ord.tasks un)).bind (fun order =>
        (wfPass ord fuel o order un asg).bind (fun r =>
          if r.2.2 && !r.1.isEmpty then wfLoop ord fuel o rounds r.1 r.2.1 else some (r.1, r.2.1))) := rfl

theorem wfLoop_ends {ord : Order} (hot : ∀ l, (ord.tasks l).Perm l) (ho : ∀ l, (ord.cores l).Perm l)
    (o : Options) (n : ℕ) : ∀ (un : List ATask) (asg : Assign), (un.map ATask.cost).sum < n →
      (∀ t ∈ un, Proper t) → Good asg →
      ∃ N r, ∀ fuel ≥ N, ∀ rounds ≥ n, wfLoop ord fuel o rounds un asg = some r := by
  induction n with
  | zero => intro un asg h; omega
  | succ n ih =>
    intro un asg hlt hp hg
    obtain ⟨order, hord⟩ := sorted_ends ATask.affinity
      (fun t ht => hp t ((hot un).mem_iff.1 ht) : ∀ t ∈ ord.tasks un, Proper t)
    have hperm := (sorted_spec _ hord).trans (hot un)
    have hpo : ∀ t ∈ order, Proper t := fun t ht => hp t (hperm.mem_iff.1 ht)
    obtain ⟨N, ⟨un', asg', again⟩, hN⟩ := wfPass_ends ho o order un asg hpo hg
    obtain ⟨r1, r2, r3, r4⟩ := wfPass_spec ho o order un [] asg un' asg' again
      (by simpa using hperm.symm) hpo hg (by simp) (hN N le_rfl)
    obtain ⟨g1, g2, _⟩ := r1.good hp hg
    simp only at hN
    by_cases hc : (again && !un'.isEmpty) = true
    · rw [Bool.and_eq_true] at hc
      obtain ⟨M, r, hM⟩ := ih un' asg' (by have := r3 hc.1; omega) g1 g2
      refine ⟨max N M, r, fun fuel hf rounds hr => ?_⟩
      obtain ⟨rounds', rfl⟩ : ∃ q, rounds = q + 1 := ⟨rounds - 1, by omega⟩
      rw [wfLoop_succ, hord, Option.bind_some, hN fuel (by omega), Option.bind_some]
      simp only
      rw [if_pos (by rw [Bool.and_eq_true]; exact hc)]
      exact hM fuel (by omega) rounds' (by omega)
    · refine ⟨N, (un', asg'), fun fuel hf rounds hr => ?_⟩
      obtain ⟨rounds', rfl⟩ : ∃ q, rounds = q + 1 := ⟨rounds - 1, by omega⟩
      rw [wfLoop_succ, hord, Option.bind_some, hN fuel (by omega), Option.bind_some]
      simp only
      rw [if_neg hc]

theorem wfLoop_spec {ord : Order} (hot : ∀ l, (ord.tasks l).Perm l) (ho : ∀ l, (ord.cores l).Perm l)
    (o : Options) (fuel rounds : ℕ) : ∀ (un : List ATask) (asg : Assign) (un' : List ATask) (asg' : Assign),
      (∀ t ∈ un, Proper t) → Good asg → wfLoop ord fuel o rounds un asg = some (un', asg') →
      Reach o.minChunk o.withSplits asg un un' asg' ∧
      ∀ u ∈ un', ∀ c ∈ u.affinity, ¬ Ok (asg' c ++ [u]) := by
  induction rounds with
  | zero => intro un asg un' asg' _ _ h; cases h
  | succ n ih =>
    intro un asg un' asg' hp hg h
    rw [wfLoop_succ, Option.bind_eq_some_iff] at h
    obtain ⟨order, hord, h⟩ := h
    rw [Option.bind_eq_some_iff] at h
    obtain ⟨⟨un1, asg1, again⟩, hpass, h⟩ := h
    have hperm := (sorted_spec _ hord).trans (hot un)
    have hpo : ∀ t ∈ order, Proper t := fun t ht => hp t (hperm.mem_iff.1 ht)
    obtain ⟨r1, r2, r3, r4⟩ := wfPass_spec ho o order un [] asg un1 asg1 again
      (by simpa using hperm.symm) hpo hg (by simp) hpass
    obtain ⟨g1, g2, _⟩ := r1.good hp hg
    simp only at h
    split at h
    · obtain ⟨i1, i2⟩ := ih un1 asg1 un' asg' g1 g2 h
      exact ⟨r1.trans i1, i2⟩
    · rename_i hc
      simp only [Option.some.injEq, Prod.mk.injEq] at h
      obtain ⟨rfl, rfl⟩ := h
      refine ⟨r1, fun u hu => ?_⟩
      apply r4 _ u hu
      cases again with
      | false => rfl
      | true =>
        exfalso
        apply hc
        cases un1 with
        | nil => simp at hu
        | cons a b => rfl

/-! ### First fit -/

theorem ffPass_cons (fuel : ℕ) (s : Bool) (k core : ℕ) (t : ATask) (rest un : List ATask) (asg : Assign) :
    ffPass fuel s k core (t :: rest) un asg =
      (qpaItFits fuel (asg core ++ [t])).bind (fun b =>
        if b = true then ffPass fuel s k core rest (un.erase t) (put asg core t)
        else if s && decide (k * 2 ≤ t.cost) then
          (qpaSplitOffChunk fuel (asg core) t).bind (fun wcet =>
            (splitAt asg t k core wcet).bind (fun r =>
              match r with
              | some (asg', t2) => some (un.erase t ++ [t2], asg')
              | none => some (un, asg)))
        else ffPass fuel s k core rest un asg) := rfl

theorem ffPass_ends (s : Bool) (k core : ℕ) (order : List ATask) :
    ∀ (un : List ATask) (asg : Assign), (∀ t ∈ order, Proper t ∧ core ∈ t.affinity) → Good asg →
      Ends (fun fuel => ffPass fuel s k core order un asg) := by
  induction order with
  | nil => exact fun un asg _ _ => Ends.pure _
  | cons t rest ih =>
    intro un asg hp hg
    obtain ⟨ht, hc⟩ := hp t (by simp)
    have hrest : ∀ t ∈ rest, Proper t ∧ core ∈ t.affinity := fun t h => hp t (by simp [h])
    have hfit := qpaItFits_spec (proper_append (hg core).1 ht)
    simp only [ffPass_cons]
    refine Ends.bind hfit.1 (fun fuel b hb => ?_)
    have hb2 := hfit.2 fuel b hb
    cases b with
    | true => exact ih _ _ hrest (good_put hg ht (hb2.1 rfl))
    | false =>
      simp only [Bool.false_eq_true, if_false]
      split
      · rename_i hcond
        rw [Bool.and_eq_true, decide_eq_true_eq] at hcond
        refine Ends.bind (chunk_spec (hg core).1 (hg core).2 ht).1 (fun fuel w hw => ?_)
        obtain ⟨r, hr, _⟩ := splitAt_spec (k := k) hg ht (by omega) hc
          (fun hok => absurd (hb2.2 hok) (by simp)) hw
        simp only [hr, Option.bind_some]
        cases r <;> exact Ends.pure _
      · exact ih _ _ hrest hg

theorem ffPass_spec (s : Bool) (k core : ℕ) {fuel : ℕ} (order : List ATask) :
    ∀ (un failed other : List ATask) (asg : Assign) (un' : List ATask) (asg' : Assign),
      un.Perm (order ++ (failed ++ other)) →
      (∀ t ∈ order, Proper t ∧ core ∈ t.affinity) → Good asg →
      (∀ u ∈ failed, ¬ Ok (asg core ++ [u])) →
      ffPass fuel s k core order un asg = some (un', asg') →
      Reach k s asg un un' asg' ∧
      (∀ u ∈ un', ∃ v ∈ un, v.id = u.id ∧ v.affinity = u.affinity) ∧
      (s = false → ∀ u ∈ un', u ∈ un ∧ (u ∈ other ∨ ¬ Ok (asg' core ++ [u]))) := by
  induction order with
  | nil =>
    intro un failed other asg un' asg' hperm _ _ hf h
    simp only [ffPass, Option.some.injEq, Prod.mk.injEq] at h
    obtain ⟨rfl, rfl⟩ := h
    refine ⟨.start (List.Perm.refl _), fun u hu => ⟨u, hu, rfl, rfl⟩, fun _ u hu => ⟨hu, ?_⟩⟩
    rcases List.mem_append.1 (hperm.mem_iff.1 hu) with h | h
    · simp at h
    · rcases List.mem_append.1 h with h | h
      · exact Or.inr (hf u h)
      · exact Or.inl h
  | cons t rest ih =>
    intro un failed other asg un' asg' hperm hp hg hf h
    obtain ⟨ht, hc⟩ := hp t (by simp)
    have hrest : ∀ t ∈ rest, Proper t ∧ core ∈ t.affinity := fun t h => hp t (by simp [h])
    have hmem : t ∈ un := hperm.mem_iff.2 (by simp)
    have hfit := qpaItFits_spec (proper_append (hg core).1 ht)
    rw [ffPass_cons, Option.bind_eq_some_iff] at h
    obtain ⟨b, hb, h⟩ := h
    have hb2 := hfit.2 fuel b hb
    cases b with
    | true =>
      rw [if_pos rfl] at h
      have hok := hb2.1 rfl
      have hstep : Reach k s asg un (un.erase t) (put asg core t) :=
        .place (.start (List.Perm.refl un)) (List.perm_cons_erase hmem) hc hok
      have hperm' : (un.erase t).Perm (rest ++ (failed ++ other)) := by
        have := hperm.erase t
        simpa using this
      obtain ⟨i1, i2, i3⟩ := ih (un.erase t) failed other (put asg core t) un' asg' hperm' hrest
        (good_put hg ht hok) (fun u hu => not_ok_mono (fun x => hstep.mono core x) (hf u hu)) h
      refine ⟨hstep.trans i1, fun u hu => ?_, fun hs u hu => ?_⟩
      · obtain ⟨v, hv, e⟩ := i2 u hu
        exact ⟨v, List.mem_of_mem_erase hv, e⟩
      · obtain ⟨j1, j2⟩ := i3 hs u hu
        exact ⟨List.mem_of_mem_erase j1, j2⟩
    | false =>
      simp only [Bool.false_eq_true, if_false] at h
      have hno : ¬ Ok (asg core ++ [t]) := fun hok => absurd (hb2.2 hok) (by simp)
      split at h
      · rename_i hcond
        rw [Bool.and_eq_true, decide_eq_true_eq] at hcond
        rw [Option.bind_eq_some_iff] at h
        obtain ⟨w, hw, h⟩ := h
        obtain ⟨r, hr, hs⟩ := splitAt_spec (k := k) hg ht (by omega) hc hno hw
        rw [hr, Option.bind_some] at h
        cases r with
        | none =>
          simp only [Option.some.injEq, Prod.mk.injEq] at h
          obtain ⟨rfl, rfl⟩ := h
          exact ⟨.start (List.Perm.refl _), fun u hu => ⟨u, hu, rfl, rfl⟩,
            fun hs => by rw [hs] at hcond; simp at hcond⟩
        | some v =>
          obtain ⟨asg2, t2⟩ := v
          simp only [Option.some.injEq, Prod.mk.injEq] at h
          obtain ⟨rfl, rfl⟩ := h
          have hsp := hs _ _ rfl
          refine ⟨by rw [hcond.1]; exact hsp.reach hmem, fun u hu => ?_,
            fun hs => by rw [hs] at hcond; simp at hcond⟩
          rcases List.mem_append.1 hu with h1 | h1
          · exact ⟨u, List.mem_of_mem_erase h1, rfl, rfl⟩
          · rw [List.mem_singleton.1 h1]
            obtain ⟨_, _, w, _, _, _, _, _, _, rfl⟩ := hsp
            exact ⟨t, hmem, rfl, rfl⟩
      · refine ih un (t :: failed) other asg un' asg' (hperm.trans ?_) hrest hg ?_ h
        · exact List.perm_middle.symm
        · intro u hu
          rcases List.mem_cons.1 hu with rfl | h
          · exact hno
          · exact hf u h

theorem mem_removeCore (un : List ATask) (core c i : ℕ) : ∀ a : Affinity,
    c ∈ removeCore un a core i ↔ c ∈ a i ∧ (c = core → i ∉ un.map ATask.id) := by
  unfold removeCore
  induction un with
  | nil => intro a; simp
  | cons t ts ih =>
    intro a
    rw [List.foldl_cons, ih]
    by_cases hi : i = t.id
    · subst hi
      rw [Function.update_self]
      simp only [List.mem_filter, decide_eq_true_eq, List.map_cons, List.mem_cons]
      tauto
    · rw [Function.update_of_ne hi]
      simp only [List.map_cons, List.mem_cons]
      tauto

theorem initialAffinity_eq {tasks : List ATask} (hn : (tasks.map ATask.id).Nodup) {t : ATask}
    (ht : t ∈ tasks) : initialAffinity tasks t.id = t.affinity := by
  unfold initialAffinity
  suffices H : ∀ a : Affinity, tasks.foldl (fun a t => Function.update a t.id t.affinity) a t.id =
      t.affinity from H _
  induction tasks with
  | nil => simp at ht
  | cons u us ih =>
    intro a
    rw [List.map_cons, List.nodup_cons] at hn
    rw [List.foldl_cons]
    rcases List.mem_cons.1 ht with rfl | h
    · have key : ∀ (l : List ATask) (b : Affinity), t.id ∉ l.map ATask.id →
          l.foldl (fun a t => Function.update a t.id t.affinity) b t.id = b t.id := by
        intro l
        induction l with
        | nil => exact fun _ _ => rfl
        | cons v vs ih2 =>
          intro b hb
          simp only [List.map_cons, List.mem_cons, not_or] at hb
          rw [List.foldl_cons, ih2 _ hb.2, Function.update_of_ne hb.1]
      rw [key us _ hn.1, Function.update_self]
    · exact ih hn.2 h _

theorem ffLoop_cons (ord : Order) (fuel : ℕ) (s : Bool) (k core : ℕ) (cores : List ℕ) (a : Affinity)
    (un : List ATask) (asg : Assign) :
    ffLoop ord fuel s k (core :: cores) a un asg =
      (sortedByDifficulty (fun t => a t.id)
        ((ord.tasks un).filter (fun t => (a t.id).contains core))).bind (fun order =>
        (ffPass fuel s k core order un asg).bind (fun r =>
          ffLoop ord fuel s k cores (removeCore r.1 a core) r.1 r.2)) := rfl

theorem ffLoop_spec {ord : Order} (hot : ∀ l, (ord.tasks l).Perm l) (s : Bool) (k : ℕ) (cores : List ℕ) :
    ∀ (a : Affinity) (un : List ATask) (asg : Assign),
      (∀ t ∈ un, Proper t ∧ ∀ c ∈ a t.id, c ∈ t.affinity) → Good asg →
      Ends (fun fuel => ffLoop ord fuel s k cores a un asg) ∧
      ∀ fuel un' asg', ffLoop ord fuel s k cores a un asg = some (un', asg') →
        Reach k s asg un un' asg' ∧
        (s = false → (∀ u ∈ un, ∀ c ∈ u.affinity, c ∈ a u.id ∨ ¬ Ok (asg c ++ [u])) →
          ∀ u ∈ un', ∀ c ∈ u.affinity, (c ∈ a u.id ∧ c ∉ cores) ∨ ¬ Ok (asg' c ++ [u])) := by
  induction cores with
  | nil =>
    intro a un asg hp hg
    refine ⟨Ends.pure _, fun fuel un' asg' h => ?_⟩
    simp only [ffLoop, Option.some.injEq, Prod.mk.injEq] at h
    obtain ⟨rfl, rfl⟩ := h
    exact ⟨.start (List.Perm.refl _), fun _ h u hu c hc => by simpa using h u hu c hc⟩
  | cons core cores ih =>
    intro a un asg hp hg
    have hpf : ∀ t ∈ (ord.tasks un).filter (fun t => (a t.id).contains core),
        Proper t ∧ core ∈ t.affinity := by
      intro t ht
      rw [List.mem_filter, List.contains_iff_mem] at ht
      have := hp t ((hot un).mem_iff.1 ht.1)
      exact ⟨this.1, this.2 core ht.2⟩
    obtain ⟨order, hord⟩ := sorted_ends (fun t => a t.id) (fun t ht => (hpf t ht).1)
    have hperm := sorted_spec _ hord
    have hpo : ∀ t ∈ order, Proper t ∧ core ∈ t.affinity := fun t ht => hpf t (hperm.mem_iff.1 ht)
    have hall : un.Perm (order ++ ([] ++ (ord.tasks un).filter (fun t => !(a t.id).contains core))) := by
      rw [List.nil_append]
      refine List.Perm.trans ?_ (hperm.symm.append_right _)
      exact ((hot un).symm).trans (List.filter_append_perm _ _).symm
    have main : ∀ fuel un1 asg1, ffPass fuel s k core order un asg = some (un1, asg1) →
        Reach k s asg un un1 asg1 ∧ Good asg1 ∧
        (∀ t ∈ un1, Proper t ∧ ∀ c ∈ removeCore un1 a core t.id, c ∈ t.affinity) ∧
        (s = false → ∀ u ∈ un1, u ∈ un ∧ (core ∉ a u.id ∨ ¬ Ok (asg1 core ++ [u]))) := by
      intro fuel un1 asg1 h
      obtain ⟨p1, p2, p3⟩ := ffPass_spec s k core order un [] _ asg un1 asg1 hall hpo hg (by simp) h
      obtain ⟨g1, g2, _⟩ := p1.good (fun t ht => (hp t ht).1) hg
      refine ⟨p1, g2, fun t ht => ⟨g1 t ht, fun c hc => ?_⟩, fun hs u hu => ?_⟩
      · obtain ⟨v, hv, e1, e2⟩ := p2 t ht
        rw [mem_removeCore, ← e1] at hc
        rw [← e2]
        exact (hp v hv).2 c hc.1
      · obtain ⟨q1, q2⟩ := p3 hs u hu
        refine ⟨q1, q2.imp_left (fun h => ?_)⟩
        rw [List.mem_filter] at h
        simpa using h.2
    constructor
    · simp only [ffLoop_cons, hord, Option.bind_some]
      refine Ends.bind (ffPass_ends s k core order un asg hpo hg) (fun fuel r hr => ?_)
      obtain ⟨m1, m2, m3, _⟩ := main fuel r.1 r.2 hr
      exact (ih _ _ _ m3 m2).1
    · intro fuel un' asg' h
      rw [ffLoop_cons, hord, Option.bind_some, Option.bind_eq_some_iff] at h
      obtain ⟨⟨un1, asg1⟩, hpass, h⟩ := h
      obtain ⟨m1, m2, m3, m4⟩ := main fuel un1 asg1 hpass
      obtain ⟨i1, i2⟩ := (ih _ _ _ m3 m2).2 fuel un' asg' h
      refine ⟨m1.trans i1, fun hs hinv u hu c hc => ?_⟩
      have hinv1 : ∀ u ∈ un1, ∀ c ∈ u.affinity, c ∈ removeCore un1 a core u.id ∨ ¬ Ok (asg1 c ++ [u]) := by
        intro u hu c hc
        obtain ⟨q1, q2⟩ := m4 hs u hu
        rcases hinv u q1 c hc with h1 | h1
        · by_cases hcc : c = core
          · subst hcc
            rcases q2 with h2 | h2
            · exact absurd h1 h2
            · exact Or.inr h2
          · left
            rw [mem_removeCore]
            exact ⟨h1, fun e => absurd e hcc⟩
        · exact Or.inr (not_ok_mono (fun x => m1.mono c x) h1)
      rcases i2 hs hinv1 u hu c hc with ⟨h1, h2⟩ | h1
      · left
        rw [mem_removeCore] at h1
        refine ⟨h1.1, ?_⟩
        rw [List.mem_cons, not_or]
        refine ⟨fun e => ?_, h2⟩
        have hu1 : u ∈ un1 := by
          subst hs
          have key : ∀ {p : Assign} {l l' : List ATask} {b : Assign}, Reach k false p l l' b →
              ∀ x ∈ l', x ∈ l := by
            intro p l l' b hr
            induction hr with
            | start hp => exact fun x hx => hp.mem_iff.1 hx
            | place _ b _ _ ih => exact fun x hx => ih x (b.mem_iff.2 (by simp [hx]))
            | split _ b => cases b
          exact key i1 u hu
        exact h1.2 e (List.mem_map.2 ⟨u, hu1, rfl⟩)
      · exact Or.inr h1

end Verif.Apa
