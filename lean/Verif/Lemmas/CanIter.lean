/-
Lemmas about the iterations of the failure statistics of the CAN bus simulator.
-/
import Verif.Lemmas.CanStats
import Mathlib.Tactic.Ring

namespace Verif.CanSim
open Verif.Spec

variable {n : ℕ} {σ : Type} {ts : Fin n → Msg} {ord : Order n}

/-! ### Callbacks that agree as long as there are no host faults -/

/-- Two sets of callbacks agree on states with property `P`, if there are no host faults. -/
structure Agree (h₁ h₂ : Hooks n σ) (P : σ → Prop) : Prop where
  completed : ∀ i j t st, P st → j.hostFaults = [] → h₁.completed i j t st = h₂.completed i j t st ∧
    (h₁.completed i j t st).1 = [] ∧ P (h₁.completed i j t st).2
  expired : ∀ i k t st, P st → h₁.expired i k t st = h₂.expired i k t st ∧ P (h₁.expired i k t st)
  aborted : ∀ st, h₁.aborted st = h₂.aborted st

/-- No host faults. -/
def Calm (P : σ → Prop) (s : Sim n σ) : Prop := P s.stats ∧ ∀ i, (s.job i).hostFaults = []

variable {h₁ h₂ : Hooks n σ} {P : σ → Prop}

theorem Calm.set {s : Sim n σ} (h : Calm P s) (i : Fin n) (j : Job) (hj : j.hostFaults = []) :
    Calm P (s.setJob i j) := by
  refine ⟨h.1, fun i' => ?_⟩
  unfold Sim.setJob
  by_cases hi : i' = i
  · subst hi; simpa using hj
  · simp only [Function.update_of_ne hi]; exact h.2 i'

theorem isOmission_nil (a b : ℤ) : isOmission a b [] = (false, []) := rfl

theorem addReady_calm (boot fuel : ℕ) (s s' : Sim n σ) (i : Fin n) (hs : Calm P s)
    (h : addReady ts boot fuel s i = some s') : Calm P s' := by
  cases fuel with
  | zero => simp [addReady] at h
  | succ fuel =>
    unfold addReady at h
    simp only [hs.2 i, isOmission_nil, Bool.false_eq_true, if_false] at h
    split_ifs at h
    · simp only [Option.some.injEq] at h
      subst h
      exact (Calm.set (s := { s with events :=
        s.events ++ [((s.job i).release + (ts i).deadline, Ev.deadline i (s.job i).seqno)] })
        hs i _ rfl)
    · simp only [Option.some.injEq] at h
      subst h
      exact hs

theorem finish_calm (ha : Agree h₁ h₂ P) (boot fuel delta : ℕ) (s : Sim n σ) (hs : Calm P s) :
    finish ts h₁ boot fuel delta s = finish ts h₂ boot fuel delta s ∧
    ∀ s', finish ts h₁ boot fuel delta s = some s' → Calm P s' := by
  unfold finish
  cases hb : s.bus with
  | none =>
    simp only [true_and, Option.some.injEq]
    rintro s' rfl
    exact hs
  | some i =>
    simp only [Sim.setJob, Function.update_self, retransmit, Function.update_idem]
    obtain ⟨a1, a2, a3⟩ := ha.completed i
      { s.job i with allocation := (s.job i).allocation + delta } s.now s.stats hs.1 (hs.2 i)
    refine ⟨by rw [a1], ?_⟩
    intro s' h
    split_ifs at h
    · simp only [Option.some.injEq] at h
      subst h
      refine ⟨hs.1, fun i' => ?_⟩
      by_cases hi : i' = i
      · subst hi; simpa using hs.2 i'
      · simp only [Function.update_of_ne hi]; exact hs.2 i'
    · simp only [completed, Sim.setJob, Function.update_self, Function.update_idem,
        Option.map_eq_some_iff] at h
      obtain ⟨s₁, h1, rfl⟩ := h
      refine (?_ : Calm P s₁)
      unfold addRelease at h1
      split_ifs at h1
      · simp only [Option.some.injEq] at h1
        subst h1
        refine ⟨a3, fun i' => ?_⟩
        by_cases hi : i' = i
        · subst hi; simpa [Job.initNext] using a2
        · simp only [Function.update_of_ne hi]; exact hs.2 i'
      · refine addReady_calm boot fuel _ s₁ i ?_ h1
        refine ⟨a3, fun i' => ?_⟩
        by_cases hi : i' = i
        · subst hi; simpa [Job.initNext] using a2
        · simp only [Function.update_of_ne hi]; exact hs.2 i'
    · simp only [Option.some.injEq] at h
      subst h
      refine ⟨hs.1, fun i' => ?_⟩
      by_cases hi : i' = i
      · subst hi; simpa using hs.2 i'
      · simp only [Function.update_of_ne hi]; exact hs.2 i'

theorem fire_calm (ha : Agree h₁ h₂ P) (boot : ℕ) : ∀ (fuel : ℕ) (s : Sim n σ), Calm P s →
    fire ts h₁ ord boot fuel s = fire ts h₂ ord boot fuel s ∧
    ∀ s', fire ts h₁ ord boot fuel s = some s' → Calm P s' := by
  intro fuel
  induction fuel with
  | zero => intro s _; simp [fire]
  | succ fuel ih =>
    intro s hs
    unfold fire
    cases he : ord.event s.taken s.events with
    | none =>
      simp only [true_and, Option.some.injEq]
      rintro s' rfl
      exact hs
    | some e =>
      simp only
      by_cases hgt : e.1 > s.now
      · simp only [if_pos hgt, true_and, Option.some.injEq]
        rintro s' rfl
        exact hs
      · simp only [if_neg hgt]
        cases hev : e.2 with
        | dummy => exact ih { s with events := s.events.erase e, taken := s.taken + 1 } hs
        | deadline i k =>
          simp only
          obtain ⟨e1, e2⟩ := ha.expired i k s.now s.stats hs.1
          rw [← e1]
          exact ih { s with
            events := s.events.erase e
            taken := s.taken + 1
            stats := h₁.expired i k s.now s.stats } ⟨e2, hs.2⟩
        | release i =>
          simp only
          cases hr : addReady ts boot fuel
              { s with events := s.events.erase e, taken := s.taken + 1 } i with
          | none => simp
          | some s₁ =>
            exact ih s₁ (addReady_calm boot fuel
              { s with events := s.events.erase e, taken := s.taken + 1 } s₁ i hs hr)

theorem simulate_calm (ha : Agree h₁ h₂ P) (boot end_ : ℕ) : ∀ (fuel : ℕ) (s : Sim n σ),
    Calm P s → simulateUntil ts h₁ ord boot end_ fuel s = simulateUntil ts h₂ ord boot end_ fuel s := by
  intro fuel
  induction fuel with
  | zero => intro s _; rfl
  | succ fuel ih =>
    intro s hs
    unfold simulateUntil
    rw [ha.aborted]
    split_ifs with hc
    · cases he : ord.event s.taken s.events with
      | none => rfl
      | some e =>
        simp only
        have hadv : advance ts h₁ ord boot fuel e.1 s = advance ts h₂ ord boot fuel e.1 s ∧
            ∀ s', advance ts h₁ ord boot fuel e.1 s = some s' → Calm P s' := by
          unfold advance
          obtain ⟨f1, f2⟩ := finish_calm (ts := ts) ha boot fuel (e.1 - s.now)
            ({ s with now := e.1 } : Sim n σ) hs
          rw [← f1]
          cases hf : finish ts h₁ boot fuel (e.1 - s.now) { s with now := e.1 } with
          | none => simp
          | some s₁ =>
            obtain ⟨g1, g2⟩ := fire_calm (ts := ts) (ord := ord) ha boot fuel s₁ (f2 s₁ hf)
            simp only [Option.bind_some]
            rw [← g1]
            refine ⟨rfl, ?_⟩
            intro s' h
            obtain ⟨s₂, h2, rfl⟩ := Option.map_eq_some_iff.mp h
            have hs₂ := g2 s₂ h2
            unfold schedule
            cases hb : s₂.bus with
            | some j => exact hs₂
            | none =>
              cases hm : ord.msg s₂.taken s₂.pending with
              | none => exact hs₂
              | some j =>
                refine ⟨hs₂.1, fun i' => ?_⟩
                simp only [Sim.setJob]
                by_cases hi : i' = j
                · subst hi
                  simp only [Function.update_self, Job.updateSeqno]
                  split_ifs <;> exact hs₂.2 i'
                · simp only [Function.update_of_ne hi]; exact hs₂.2 i'
        rw [← hadv.1]
        cases hh : advance ts h₁ ord boot fuel e.1 s with
        | none => rfl
        | some s₁ => exact ih s₁ (hadv.2 s₁ hh)
    · rfl

/-! ### The coins do not matter without host faults -/

/-- Rounds in ascending order, each with more correct than faulty messages. -/
def Clean (rounds : List Round) : Prop :=
  rounds.Pairwise (fun a b => a.seqno < b.seqno) ∧ ∀ r ∈ rounds, r.faulty < r.ok

theorem addRound_new {k : ℕ} {l : List Round} (hl : l.Pairwise (fun a b => a.seqno < b.seqno)) :
    (addRound k l = l) ∨ (addRound k l = l ++ [⟨k, 0, 0⟩] ∧ ∀ r ∈ l, r.seqno < k) := by
  unfold addRound
  rcases List.eq_nil_or_concat l with rfl | ⟨l', x, rfl⟩
  · right; simp
  · rw [List.concat_eq_append, List.getLast?_concat]
    simp only
    rw [List.concat_eq_append] at hl
    by_cases h : k > x.seqno
    · right
      rw [if_pos h]
      refine ⟨rfl, ?_⟩
      intro r hr
      rcases List.mem_append.mp hr with hr | hr
      · have := (List.pairwise_append.mp hl).2.2 r hr x (by simp)
        omega
      · simp only [List.mem_singleton] at hr
        subst hr
        exact h
    · left
      rw [if_neg h]

theorem countMsg_seqnos (k : ℕ) (bad : Bool) (l : List Round) :
    (countMsg k bad l).map (fun r => r.seqno) = l.map (fun r => r.seqno) := by
  induction l with
  | nil => rfl
  | cons a l ih =>
    unfold countMsg
    split_ifs <;> simp [ih]

theorem countMsg_clean (k : ℕ) (l : List Round) (h : ∀ r ∈ l, r.faulty < r.ok) :
    ∀ r ∈ countMsg k false l, r.faulty < r.ok := by
  induction l with
  | nil => simp [countMsg]
  | cons a l ih =>
    unfold countMsg
    intro r hr
    by_cases ha : a.seqno = k
    · rw [if_pos ha] at hr
      simp only [Bool.false_eq_true, if_false, List.mem_cons] at hr
      rcases hr with rfl | hr
      · have := h a List.mem_cons_self
        simp only
        omega
      · exact h r (List.mem_cons_of_mem _ hr)
    · rw [if_neg ha] at hr
      rcases List.mem_cons.mp hr with rfl | hr
      · exact h r List.mem_cons_self
      · exact ih (fun r hr => h r (List.mem_cons_of_mem _ hr)) r hr

theorem received_clean (k : ℕ) (l : List Round) (h : Clean l) :
    Clean (countMsg k false (addRound k l)) := by
  rcases addRound_new (k := k) h.1 with h1 | ⟨h1, h2⟩
  · rw [h1]
    refine ⟨?_, countMsg_clean k l h.2⟩
    have h3 : (l.map (fun r => r.seqno)).Pairwise (· < ·) := List.pairwise_map.mpr h.1
    rw [← countMsg_seqnos k false l] at h3
    exact List.pairwise_map.mp h3
  · rw [h1, countMsg_snoc l ⟨k, 0, 0⟩ false (fun x hx => by have := h2 x hx; simp only; omega)]
    refine ⟨?_, ?_⟩
    · rw [List.pairwise_append]
      refine ⟨h.1, by simp, ?_⟩
      intro a ha b hb
      simp only [Bool.false_eq_true, if_false, List.mem_singleton] at hb
      subst hb
      exact h2 a ha
    · intro r hr
      rcases List.mem_append.mp hr with hr | hr
      · exact h.2 r hr
      · simp only [Bool.false_eq_true, if_false, List.mem_singleton] at hr
        subst hr
        simp

theorem eraseRound_sublist (k : ℕ) (l : List Round) : (eraseRound k l).Sublist l := by
  induction l with
  | nil => exact List.Sublist.refl _
  | cons a l ih =>
    unfold eraseRound
    split_ifs
    · exact List.sublist_cons_self _ _
    · exact ih.cons_cons a

theorem Clean.sublist {l l' : List Round} (h : Clean l) (hs : l'.Sublist l) : Clean l' :=
  ⟨h.1.sublist hs, fun r hr => h.2 r (hs.subset hr)⟩

theorem addRound_absent {k : ℕ} {l : List Round} (h : findRound k (addRound k l) = none) :
    addRound k l = l := by
  unfold findRound at h
  rw [List.find?_eq_none] at h
  unfold addRound at h ⊢
  cases hl : l.getLast? with
  | none =>
    rw [hl] at h
    exact absurd (h ⟨k, 0, 0⟩ (by simp)) (by simp)
  | some r =>
    rw [hl] at h
    simp only at h ⊢
    by_cases hk : k > r.seqno
    · rw [if_pos hk] at h
      exact absurd (h ⟨k, 0, 0⟩ (by simp)) (by simp)
    · rw [if_neg hk]

theorem coin_agree (rprime : ℕ) (c₁ c₂ : ℕ → Bool) :
    Agree (statsHooks ts rprime c₁) (statsHooks ts rprime c₂)
      (fun st => ∀ tid, Clean (st.sync tid).rounds) := by
  refine ⟨?_, ?_, fun _ => rfl⟩
  · intro i j t st hst hj
    have h1 : (completedSync (ts i) j t (st.sync (ts i).taskid)).1 = [] ∧
        Clean (completedSync (ts i) j t (st.sync (ts i).taskid)).2.rounds := by
      unfold completedSync
      by_cases h1 : j.seqno ≤ (st.sync (ts i).taskid).latest
      · rw [if_pos h1]
        exact ⟨hj, hst _⟩
      · rw [if_neg h1]
        simp only [hj]
        cases hf : findRound j.seqno (addRound j.seqno (st.sync (ts i).taskid).rounds) with
        | none =>
          simp only
          rw [addRound_absent hf]
          exact ⟨trivial, hst _⟩
        | some r =>
          simp only [isCommission, ite_self]
          exact ⟨trivial, received_clean _ _ (hst _)⟩
    refine ⟨rfl, ?_, ?_⟩
    · simp only [statsHooks, h1.1]
      unfold completedAsync
      by_cases h2 : j.seqno ≤ (st.async (ts i).taskid).latest
      · rw [if_pos h2]
      · rw [if_neg h2]
        simp only [isCommission, ite_self]
        cases findRound j.seqno (addRound j.seqno (st.async (ts i).taskid).rounds) with
        | none => rfl
        | some r =>
          simp only
          generalize (if (ts i).critical = true then rprime else 1) = need
          split_ifs <;> rfl
    · intro tid
      simp only [statsHooks]
      by_cases htid : tid = (ts i).taskid
      · subst htid
        simp only [Function.update_self]
        exact h1.2
      · simp only [Function.update_of_ne htid]
        exact hst tid
  · intro i k t st hst
    have h1 : ∀ c c' : Bool, expiredSync c k (st.sync (ts i).taskid) =
        expiredSync c' k (st.sync (ts i).taskid) ∧
        Clean (expiredSync c k (st.sync (ts i).taskid)).1.rounds := by
      intro c c'
      unfold expiredSync
      by_cases h1 : k ≤ (st.sync (ts i).taskid).latest
      · simp only [if_pos h1, true_and]
        exact hst _
      · simp only [if_neg h1]
        cases hf : findRound k (st.sync (ts i).taskid).rounds with
        | none => exact ⟨rfl, hst _⟩
        | some r =>
          have hr : r ∈ (st.sync (ts i).taskid).rounds := List.mem_of_find?_eq_some hf
          have h2 := (hst (ts i).taskid).2 r hr
          simp only [gt_iff_lt, if_pos h2, true_and]
          exact (hst _).sublist (eraseRound_sublist _ _)
    refine ⟨?_, ?_⟩
    · simp only [statsHooks]
      rw [(h1 (c₁ st.draws) (c₂ st.draws)).1]
    · intro tid
      simp only [statsHooks]
      by_cases htid : tid = (ts i).taskid
      · subst htid
        simp only [Function.update_self]
        exact (h1 (c₁ st.draws) (c₂ st.draws)).2
      · simp only [Function.update_of_ne htid]
        exact hst tid

/-! ### Iterations start afresh -/

theorem reset_fold (l : List (Fin n)) (s : Sim n Stats) :
    l.foldl (fun s i =>
      let s := s.setJob i ⟨0, (ts i).wcet, 0, 1, []⟩
      { s with events := s.events ++ [((s.job i).release, Ev.release i)] }) s =
    { s with
      job := fun i => if i ∈ l then ⟨0, (ts i).wcet, 0, 1, []⟩ else s.job i
      events := s.events ++ l.map fun i => (0, Ev.release i) } := by
  induction l generalizing s with
  | nil => simp
  | cons a l ih =>
    rw [List.foldl_cons, ih]
    simp only [Sim.setJob, Function.update_self, List.mem_cons, List.map_cons, List.append_assoc,
      List.singleton_append]
    congr 1
    funext i
    by_cases hi : i ∈ l
    · simp [hi]
    · by_cases ha : i = a
      · subst ha; simp [hi]
      · simp [hi, ha, Function.update_of_ne ha]

theorem reset_eq (s : Sim n Stats) : reset ts s = ready ts [] (fun _ => []) Stats.init := by
  unfold reset
  simp only
  have h := reset_fold (ts := ts) (List.finRange n) ({ s with
    events := [], pending := [], bus := none, now := 0, retransmissions := []
    stats := ⟨fun _ => ⟨0, 0, 0, []⟩, fun _ => ⟨0, 0, 0, []⟩, 0⟩, log := [], taken := 0 } : Sim n Stats)
  simp only at h
  rw [h]
  simp [ready, Job.init, Stats.init]

/-- Host faults only affect critical messages. -/
def hostFaults (ts : Fin n → Msg) (d : Draw n) (i : Fin n) : List ℤ :=
  if (ts i).critical then d.host i else []

theorem generate_eq (d : Draw n) : generate ts d (ready ts [] (fun _ => []) Stats.init) =
    ready ts d.bus (hostFaults ts d) Stats.init := by
  unfold generate ready hostFaults
  simp only [List.nil_append, Job.init]
  congr 1
  funext i
  split_ifs <;> rfl

theorem faultFree_iff (d : Draw n) : faultFree ts (ready ts d.bus (hostFaults ts d) Stats.init) = true ↔
    d.bus = [] ∧ hostFaults ts d = fun _ => [] := by
  unfold faultFree
  simp only [ready, Job.init, Bool.and_eq_true, List.all_eq_true, List.mem_finRange, true_imp_iff,
    Bool.or_eq_true, Bool.not_eq_true', List.isEmpty_iff]
  constructor
  · rintro ⟨h1, h2⟩
    refine ⟨h2, ?_⟩
    funext i
    rcases h1 i with h | h
    · simp [hostFaults, h]
    · exact h
  · rintro ⟨h1, h2⟩
    exact ⟨fun i => Or.inr (by rw [h2]), h1⟩

/-! ### Sums -/

theorem plus_assoc (a b c : Option ℚ) : plus (plus a b) c = plus a (plus b c) := by
  cases a <;> cases b <;> cases c <;> simp [plus, add_assoc]

theorem plus_comm (a b : Option ℚ) : plus a b = plus b a := by
  cases a <;> cases b <;> simp [plus, add_comm]

/-- `c` times the same value. -/
def times (c : ℕ) (p : Option ℚ) : Option ℚ := if c = 0 then some 0 else p.map fun q => q * (c : ℚ)

theorem plus_zero (a : Option ℚ) : plus a (some 0) = a := by
  cases a <;> simp [plus]

theorem times_succ (c : ℕ) (p : Option ℚ) : times (c + 1) p = plus (times c p) p := by
  unfold times
  by_cases hc : c = 0
  · subst hc
    cases p <;> simp [plus]
  · rw [if_neg hc, if_neg (by omega)]
    cases p with
    | none => rfl
    | some q =>
      simp only [Option.map_some, plus, Nat.cast_add, Nat.cast_one, Option.some.injEq]
      ring

end Verif.CanSim
