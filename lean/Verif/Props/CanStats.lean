/-
C117, C118, C119: the failure statistics of the CAN bus simulator.
-/
import Verif.Lemmas.CanIter
import Verif.Props.CanSim
import Mathlib.Algebra.BigOperators.Group.List.Basic
import Mathlib.Tactic.NormNum

namespace Verif.CanSim
open Verif.Spec

variable {n : ℕ} {ts : Fin n → Msg} {ord : Order n}

/-! ### C117: what is counted -/

/-- C117. For a message without replicas and host faults of which no job is skipped: the rounds
that are counted are the first ones, those with deadlines that have passed; they are counted
correctly.  For the asynchronous protocol, rounds that have been transmitted are counted, too. -/
theorem C117_exact_partial (hord : ord.Proper ts) (hP : ∀ i, 0 < (ts i).period)
    (rprime : ℕ) (coin : ℕ → Bool) (boot end_ fuel : ℕ)
    (retr : List ℕ) (hr : retr.Pairwise (· ≤ ·)) (hf : Fin n → List ℤ) (s : Sim n Stats)
    (h : simulateUntil ts (statsHooks ts rprime coin) ord boot end_ fuel
      (ready ts retr hf Stats.init) = some s)
    (i : Fin n) (hC : 0 < (ts i).wcet) (hcrit : (ts i).critical = false)
    (huniq : ∀ j, (ts j).taskid = (ts i).taskid → j = i)
    (hskip : ∀ L₁ k t L₂, s.log = L₁ ++ .start i k t :: L₂ → k = lastDone L₁ i + 1)
    (ok faulty : ℕ) (hok : (s.stats.sync (ts i).taskid).ok = ok)
    (hfaulty : (s.stats.sync (ts i).taskid).faulty = faulty)
    (ok' faulty' : ℕ) (hok' : (s.stats.async (ts i).taskid).ok = ok')
    (hfaulty' : (s.stats.async (ts i).taskid).faulty = faulty') :
    ok = onTime ts s.log i (ok + faulty) ∧
    (∀ k, 1 ≤ k → k ≤ ok + faulty → (k - 1) * (ts i).period + (ts i).deadline ≤ s.now) ∧
    (∀ k, 1 ≤ k → k ≤ lastDone s.log i + 1 →
      (k - 1) * (ts i).period + (ts i).deadline < s.now → k ≤ ok + faulty) ∧
    ok' = onTime ts s.log i (ok' + faulty') ∧
    ok' + faulty' = max (ok + faulty) (lastDone s.log i) := by
  have h0 : Tracked ts i (ready ts retr hf Stats.init) := by
    have hone : releases (ready ts retr hf Stats.init) i = 1 := by
      have := (ready_rest (ts := ts) retr hr hf Stats.init).inv.place_none i
      unfold CanSim.place at this
      unfold releases
      simpa [ready] using this
    refine ⟨by simp [ready, Job.init, lastDone], ?_,
      ⟨rfl, by simp [ready, Stats.init, lastDone], rfl, by simp [ready, Stats.init, onTime]⟩⟩
    rw [hone]
    refine ⟨by simp [ready, lastDone], by simp [ready, lastDone], ?_, by simp [ready, Stats.init], ?_, ?_,
      by simp [ready, Stats.init], ?_, by simp [ready], ?_⟩
    · intro t k
      rw [if_neg (by simp [ready, lastDone, Stats.init]; omega), List.count_eq_zero]
      simp [ready]
    · simp [ready, Stats.init, lastDone, good]
    · intro k h1 h2
      simp only [ready, Stats.init] at h2
      omega
    · simp [ready, Stats.init, onTime]
    · intro k h1 h2
      simp only [ready, lastDone, List.foldl_nil] at h2
      omega
  have hrest := (simulate_rest hord hP boot end_ fuel _ s (ready_rest retr hr hf Stats.init) h).1
  have ht := simulate_tracked hord hP hC hcrit huniq boot end_ fuel _ s
    (ready_rest retr hr hf Stats.init) (by simp [ready]) h0 h hskip
  have htot := ht.track.total
  rw [hok, hfaulty] at htot
  have htot' := ht.async.total
  rw [hok', hfaulty'] at htot'
  refine ⟨?_, ?_, ?_, ?_, ?_⟩
  · rw [← hok, hok, htot, ← hok]
    exact ht.track.ok
  · intro k h1 h2
    exact ht.track.fired k h1 (by omega)
  · intro k h1 h2 h3
    by_contra hk
    have hplace := hrest.inv.place_none i
    unfold CanSim.place at hplace
    have hle : releases s i ≤ 1 := by unfold releases; omega
    rcases Nat.lt_or_ge (lastDone s.log i + 1 - releases s i) k with hlt | hge
    · have h4 : releases s i = 1 := by omega
      have h5 : k = lastDone s.log i + 1 := by omega
      have hpos : 0 < s.events.countP (fun e => decide (e.2 = .release i)) := by
        unfold releases at h4
        omega
      obtain ⟨⟨r, e⟩, hmem, he⟩ := List.countP_pos_iff.mp hpos
      simp only [decide_eq_true_eq] at he
      subst he
      have h6 := hrest.future _ hmem
      obtain ⟨h7, h8⟩ := hrest.inv.ev r i hmem
      have h9 := (hrest.inv.rel i).2
      rw [h8, ← h5] at h9
      simp only at h6
      omega
    · have hpos : 0 < s.events.count (dl ts i k, Ev.deadline i k) := by
        rw [ht.track.ev, if_pos ⟨rfl, by omega, hge⟩]
        omega
      have := hrest.future _ (List.count_pos_iff.mp hpos)
      simp only [dl] at this
      omega
  · rw [← hok', hok', htot', ← hok']
    exact ht.async.ok
  · rw [htot', htot]
    exact ht.async.latest

/-- C117: in this simulation, no job of the first message is skipped, its second job is late, and
two of its three rounds are counted as correct. -/
def lateMsgs : Fin 2 → Msg := ![⟨5, 40, 8, 1, 0, false⟩, ⟨9, 40, 40, 2, 1, false⟩]

example : (simulateUntil lateMsgs (statsHooks lateMsgs 1 fun _ => true) (firstOrder lateMsgs) 0 90 100
      (ready lateMsgs [41] (fun _ => []) Stats.init)).map
        (fun s => (s.log.filter (fun e => match e with | .start 0 _ _ => true | .sent 0 _ _ => true | _ => false),
          (s.stats.sync 0).ok, (s.stats.sync 0).faulty, (s.stats.async 0).ok, (s.stats.async 0).faulty)) =
    some ([.start 0 1 0, .sent 0 1 5, .start 0 2 40, .start 0 2 74, .sent 0 2 79, .start 0 3 82,
      .sent 0 3 87], 2, 1, 2, 1) := by
  decide +kernel

/-- C117 is violated: message 1 has no replicas and no host faults; by time 33, the deadlines
of its first four rounds have passed, of which only the first one was missed.  But only
three rounds are counted, two as correct and one as faulty. -/
theorem C117_violated : ∃ (n : ℕ) (ts : Fin n → Msg) (ord : Order n) (s : Sim n Stats) (i : Fin n),
    ord.Proper ts ∧ (∀ i, 0 < (ts i).period) ∧ (ts i).critical = false ∧
    (∀ j, (ts j).taskid = (ts i).taskid → j = i) ∧
    simulateUntil ts (statsHooks ts 1 fun _ => true) ord 0 33 100 (ready ts [] (fun _ => []) Stats.init) =
      some s ∧
    (∀ k, 1 ≤ k → k ≤ 4 → (k - 1) * (ts i).period + (ts i).deadline ≤ 33) ∧
    (∀ k, 2 ≤ k → k ≤ 4 → ∃ t, BusEvent.sent i k t ∈ s.log ∧
      t ≤ (k - 1) * (ts i).period + (ts i).deadline) ∧
    (∀ t, BusEvent.sent i 1 t ∉ s.log) ∧
    (s.stats.sync (ts i).taskid).prob = some (1 / 3) := by
  have h : (simulateUntil earlyMsgs (statsHooks earlyMsgs 1 fun _ => true) (firstOrder earlyMsgs) 0 33 100
      (ready earlyMsgs [] (fun _ => []) Stats.init)).map (fun s => (s.log, s.stats.sync 2)) =
      some ([.start 0 1 0, .sent 0 1 4, .start 1 2 7, .sent 1 2 9, .start 1 3 16, .sent 1 3 18,
        .start 1 4 24, .sent 1 4 26, .start 1 5 32, .sent 1 5 34],
        ⟨4, 2, 1, [⟨2, 1, 0⟩, ⟨5, 1, 0⟩]⟩) := by
    decide +kernel
  obtain ⟨s, hs, hlog⟩ := Option.map_eq_some_iff.mp h
  simp only [Prod.mk.injEq] at hlog
  refine ⟨2, earlyMsgs, firstOrder earlyMsgs, s, 1, firstOrder_proper _, by decide, rfl, by decide, hs,
    ?_, ?_, ?_, ?_⟩
  · intro k h1 h2
    interval_cases k <;> decide
  · intro k h1 h2
    rw [hlog.1]
    interval_cases k
    · exact ⟨9, by decide, by decide⟩
    · exact ⟨18, by decide, by decide⟩
    · exact ⟨26, by decide, by decide⟩
  · intro t ht
    rw [hlog.1] at ht
    simp at ht
  · show (s.stats.sync 2).prob = _
    rw [hlog.2]
    norm_num [Info.prob]

/-- A callback: a job is transmitted, or a deadline expires. -/
inductive Call (n : ℕ)
  | completed (i : Fin n) (j : Job) (t : ℕ)
  | expired (i : Fin n) (k t : ℕ)

/-- The message and the number of the job. -/
def Call.about : Call n → Fin n × ℕ
  | .completed i j _ => (i, j.seqno)
  | .expired i k _ => (i, k)

/-- The effect of a callback. -/
def Call.run {σ : Type} (hooks : Hooks n σ) (st : σ) : Call n → σ
  | .completed i j t => (hooks.completed i j t st).2
  | .expired i k t => hooks.expired i k t st

/-- C117. The statistics result from a sequence of callbacks. -/
theorem C117_calls (rprime : ℕ) (coin : ℕ → Bool) (boot end_ fuel : ℕ)
    (retr : List ℕ) (hf : Fin n → List ℤ) (s : Sim n Stats)
    (h : simulateUntil ts (statsHooks ts rprime coin) ord boot end_ fuel
      (ready ts retr hf Stats.init) = some s) :
    ∃ calls : List (Call n),
      s.stats = calls.foldl (Call.run (statsHooks ts rprime coin)) Stats.init := by
  have hQ : Follows (statsHooks ts rprime coin) (fun st (_ : List (BusEvent n)) =>
      ∃ calls : List (Call n), st = calls.foldl (Call.run (statsHooks ts rprime coin)) Stats.init) := by
    refine ⟨fun _ _ _ _ _ h => h, fun _ _ _ _ _ h => h, fun _ _ _ _ _ h => h, ?_, ?_⟩
    · rintro st L i j t ⟨calls, rfl⟩
      exact ⟨calls ++ [.completed i j t], by rw [List.foldl_append]; rfl⟩
    · rintro st L i k t ⟨calls, rfl⟩
      exact ⟨calls ++ [.expired i k t], by rw [List.foldl_append]; rfl⟩
  exact simulate_follows hQ boot end_ fuel _ s ⟨[], rfl⟩ h

/-- C117. Whatever the sequence of callbacks, no round is counted twice: the counted rounds are
at most as many as there are different round numbers. -/
theorem C117_once (rprime : ℕ) (coin : ℕ → Bool) (calls : List (Call n)) (tid : ℕ) :
    let st := calls.foldl (Call.run (statsHooks ts rprime coin)) Stats.init
    let numbers := ((calls.filter fun c => (ts c.about.1).taskid = tid).map
      fun c => c.about.2).toFinset
    (st.sync tid).ok + (st.sync tid).faulty ≤ numbers.card ∧
    (st.async tid).ok + (st.async tid).faulty ≤ numbers.card := by
  have key : ∀ calls : List (Call n),
      let st := calls.foldl (Call.run (statsHooks ts rprime coin)) Stats.init
      let numbers := ((calls.filter fun c => (ts c.about.1).taskid = tid).map
        fun c => c.about.2).toFinset
      (st.sync tid).ok + (st.sync tid).faulty ≤
        (numbers.filter fun k => k ≤ (st.sync tid).latest).card ∧
      (st.async tid).ok + (st.async tid).faulty ≤
        (numbers.filter fun k => k ≤ (st.async tid).latest).card := by
    intro calls
    induction calls using List.reverseRecOn with
    | nil => simp [Stats.init]
    | append_singleton calls c ih =>
      simp only [List.foldl_append, List.foldl_cons, List.foldl_nil, List.filter_append] at ih ⊢
      generalize calls.foldl (Call.run (statsHooks ts rprime coin)) Stats.init = st at ih ⊢
      generalize hS : ((calls.filter fun c => decide ((ts c.about.1).taskid = tid)).map
        fun c => c.about.2).toFinset = S at ih
      by_cases htid : (ts c.about.1).taskid = tid
      · have hfl : (calls.filter (fun c => decide ((ts c.about.1).taskid = tid)) ++
            [c].filter (fun c => decide ((ts c.about.1).taskid = tid))).map (fun c => c.about.2) =
            (calls.filter (fun c => decide ((ts c.about.1).taskid = tid))).map (fun c => c.about.2) ++
              [c.about.2] := by
          simp [htid]
        rw [hfl, List.toFinset_append, hS]
        have hsame : ∀ m, (S.filter fun k => k ≤ m).card ≤
            ((S ∪ [c.about.2].toFinset).filter fun k => k ≤ m).card := by
          intro m
          apply Finset.card_le_card
          exact Finset.filter_subset_filter _ Finset.subset_union_left
        have hmore : ∀ m, m < c.about.2 → (S.filter fun k => k ≤ m).card + 1 ≤
            ((S ∪ [c.about.2].toFinset).filter fun k => k ≤ c.about.2).card := by
          intro m hm
          have h1 : c.about.2 ∉ S.filter fun k => k ≤ m := by
            simp only [Finset.mem_filter, not_and]
            omega
          rw [← Finset.card_insert_of_notMem h1]
          apply Finset.card_le_card
          intro k hk
          simp only [Finset.mem_insert, Finset.mem_filter, Finset.mem_union, List.mem_toFinset,
            List.mem_singleton] at hk ⊢
          rcases hk with rfl | ⟨h1, h2⟩
          · exact ⟨Or.inr rfl, le_rfl⟩
          · exact ⟨Or.inl h1, by omega⟩
        cases c with
        | completed i j t =>
          simp only [Call.about] at htid hsame hmore ⊢
          subst htid
          simp only [Call.run, statsHooks, Function.update_self]
          refine ⟨?_, ?_⟩
          · have h1 : (completedSync (ts i) j t (st.sync (ts i).taskid)).2.ok =
                (st.sync (ts i).taskid).ok ∧
                (completedSync (ts i) j t (st.sync (ts i).taskid)).2.faulty =
                (st.sync (ts i).taskid).faulty ∧
                (completedSync (ts i) j t (st.sync (ts i).taskid)).2.latest =
                (st.sync (ts i).taskid).latest := by
              unfold completedSync
              split_ifs
              · exact ⟨rfl, rfl, rfl⟩
              all_goals
                simp only
                split <;> exact ⟨rfl, rfl, rfl⟩
            rw [h1.1, h1.2.1, h1.2.2]
            exact ih.1.trans (hsame _)
          · generalize (completedSync (ts i) j t (st.sync (ts i).taskid)).1 = fs
            unfold completedAsync
            by_cases h1 : j.seqno ≤ (st.async (ts i).taskid).latest
            · simp only [if_pos h1]
              exact ih.2.trans (hsame _)
            · simp only [if_neg h1]
              cases findRound j.seqno (addRound j.seqno (st.async (ts i).taskid).rounds) with
              | none => exact ih.2.trans (hsame _)
              | some r =>
                simp only
                generalize (if (ts i).critical = true then isCommission (j.release : ℤ) (t : ℤ) fs
                  else (false, fs)) = c
                generalize (if c.1 = true then r.ok else r.ok + 1) = a
                generalize (if (ts i).critical = true then rprime else 1) = b
                by_cases h2 : a ≥ b
                · simp only [if_pos h2]
                  refine le_trans ?_ (hmore _ (Nat.lt_of_not_le h1))
                  have := ih.2
                  omega
                · simp only [if_neg h2]
                  exact ih.2.trans (hsame _)
        | expired i k t =>
          simp only [Call.about] at htid hsame hmore ⊢
          subst htid
          simp only [Call.run, statsHooks, Function.update_self]
          refine ⟨?_, ?_⟩
          · generalize coin st.draws = cn
            unfold expiredSync
            by_cases h1 : k ≤ (st.sync (ts i).taskid).latest
            · simp only [if_pos h1]
              exact ih.1.trans (hsame _)
            · simp only [if_neg h1]
              have h3 := hmore _ (Nat.lt_of_not_le h1)
              have h4 := ih.1
              cases findRound k (st.sync (ts i).taskid).rounds with
              | none =>
                refine le_trans ?_ h3
                simp only
                omega
              | some r =>
                simp only
                by_cases h5 : r.ok > r.faulty
                · simp only [if_pos h5]
                  refine le_trans ?_ h3
                  omega
                · simp only [if_neg h5]
                  by_cases h6 : r.ok = r.faulty
                  · simp only [if_pos h6]
                    cases cn
                    · refine le_trans (b := _ + 1) ?_ h3
                      show (st.sync (ts i).taskid).ok + 1 + (st.sync (ts i).taskid).faulty ≤ _
                      omega
                    · refine le_trans (b := _ + 1) ?_ h3
                      show (st.sync (ts i).taskid).ok + ((st.sync (ts i).taskid).faulty + 1) ≤ _
                      omega
                  · simp only [if_neg h6]
                    refine le_trans ?_ h3
                    omega
          · unfold expiredAsync
            by_cases h1 : k ≤ (st.async (ts i).taskid).latest
            · simp only [if_pos h1]
              exact ih.2.trans (hsame _)
            · simp only [if_neg h1]
              refine le_trans ?_ (hmore _ (Nat.lt_of_not_le h1))
              have h4 := ih.2
              omega
      · have hfl : (calls.filter (fun c => decide ((ts c.about.1).taskid = tid)) ++
            [c].filter (fun c => decide ((ts c.about.1).taskid = tid))).map (fun c => c.about.2) =
            (calls.filter (fun c => decide ((ts c.about.1).taskid = tid))).map (fun c => c.about.2) := by
          simp [htid]
        rw [hfl, hS]
        cases c with
        | completed i j t =>
          simp only [Call.about] at htid
          simp only [Call.run, statsHooks, Function.update_of_ne (Ne.symm htid)]
          exact ih
        | expired i k t =>
          simp only [Call.about] at htid
          simp only [Call.run, statsHooks, Function.update_of_ne (Ne.symm htid)]
          exact ih
  intro st numbers
  obtain ⟨h1, h2⟩ := key calls
  exact ⟨h1.trans (Finset.card_le_card (Finset.filter_subset _ _)),
    h2.trans (Finset.card_le_card (Finset.filter_subset _ _))⟩

/-! ### C118: corrupted messages -/

/-- One critical message. -/
def criticalMsg : Fin 1 → Msg := ![⟨5, 20, 20, 1, 1, true⟩]

/-- C118 is violated: the only message of round 1 is corrupted by a host fault at time 2.  The
round is counted as faulty for the synchronous protocol, but as correct for the asynchronous
one. -/
theorem C118_violated : ∃ s : Sim 1 Stats,
    simulateUntil criticalMsg (statsHooks criticalMsg 1 fun _ => true) (firstOrder criticalMsg) 0 20 100
      (ready criticalMsg [] (fun _ => [2]) Stats.init) = some s ∧
    s.log = [.start 0 1 0, .sent 0 1 5, .start 0 2 20, .sent 0 2 25] ∧
    (s.stats.sync 1).faulty = 1 ∧ (s.stats.sync 1).ok = 0 ∧ (s.stats.async 1).faulty = 0 ∧
    (s.stats.async 1).ok = 2 := by
  have h : (simulateUntil criticalMsg (statsHooks criticalMsg 1 fun _ => true) (firstOrder criticalMsg)
      0 20 100 (ready criticalMsg [] (fun _ => [2]) Stats.init)).map
        (fun s => (s.log, s.stats.sync 1, s.stats.async 1)) =
      some ([.start 0 1 0, .sent 0 1 5, .start 0 2 20, .sent 0 2 25],
        ⟨1, 0, 1, [⟨2, 1, 0⟩]⟩, ⟨2, 2, 0, []⟩) := by
    decide +kernel
  obtain ⟨s, hs, hlog⟩ := Option.map_eq_some_iff.mp h
  simp only [Prod.mk.injEq] at hlog
  obtain ⟨h1, h2, h3⟩ := hlog
  exact ⟨s, hs, h1, by rw [h2], by rw [h2], by rw [h3], by rw [h3]⟩

theorem isCommission_spec (a b : ℤ) (l : List ℤ) (hl : l.Pairwise (· ≤ ·)) :
    ((isCommission a b l).1 = true ↔ ∃ f ∈ l, a ≤ f ∧ f ≤ b) := by
  induction l with
  | nil => simp [isCommission]
  | cons f fs ih =>
    obtain ⟨h1, h2⟩ := List.pairwise_cons.mp hl
    unfold isCommission
    by_cases hb : b < f
    · rw [if_pos hb]
      simp only [Bool.false_eq_true, false_iff]
      rintro ⟨g, hg, _, hgb⟩
      rcases List.mem_cons.mp hg with rfl | hg
      · omega
      · have := h1 g hg
        omega
    · rw [if_neg hb]
      by_cases ha : a ≤ f ∧ f ≤ b
      · rw [if_pos ha]
        simp only [true_iff]
        exact ⟨f, List.mem_cons_self, ha⟩
      · rw [if_neg ha, ih h2]
        constructor
        · rintro ⟨g, hg, h⟩
          exact ⟨g, List.mem_cons_of_mem _ hg, h⟩
        · rintro ⟨g, hg, h⟩
          rcases List.mem_cons.mp hg with rfl | hg
          · exact absurd h ha
          · exact ⟨g, hg, h⟩

/-- C118, synchronous protocol: the first message of a new round of a critical task counts as
faulty if and only if a host fault occurs between its release and its transmission. -/
theorem C118_sync_partial (rprime : ℕ) (coin : ℕ → Bool) (i : Fin n) (j : Job) (t : ℕ) (st : Stats)
    (hcrit : (ts i).critical = true) (hsort : j.hostFaults.Pairwise (· ≤ ·))
    (hlate : (st.sync (ts i).taskid).latest < j.seqno)
    (hnew : ∀ r ∈ (st.sync (ts i).taskid).rounds, r.seqno < j.seqno) :
    ((∃ f ∈ j.hostFaults, (j.release : ℤ) ≤ f ∧ f ≤ t) →
      (((statsHooks ts rprime coin).completed i j t st).2.sync (ts i).taskid).rounds =
        (st.sync (ts i).taskid).rounds ++ [⟨j.seqno, 0, 1⟩]) ∧
    ((¬ ∃ f ∈ j.hostFaults, (j.release : ℤ) ≤ f ∧ f ≤ t) →
      (((statsHooks ts rprime coin).completed i j t st).2.sync (ts i).taskid).rounds =
        (st.sync (ts i).taskid).rounds ++ [⟨j.seqno, 1, 0⟩]) := by
  have hadd : addRound j.seqno (st.sync (ts i).taskid).rounds =
      (st.sync (ts i).taskid).rounds ++ [⟨j.seqno, 0, 0⟩] := by
    unfold addRound
    cases hl : (st.sync (ts i).taskid).rounds.getLast? with
    | none => rfl
    | some r =>
      simp only
      rw [if_pos (hnew r (List.mem_of_getLast? hl))]
  have hne : ∀ x ∈ (st.sync (ts i).taskid).rounds, x.seqno ≠ (⟨j.seqno, 0, 0⟩ : Round).seqno := by
    intro x hx
    have := hnew x hx
    simp only
    omega
  have hf := find_snoc _ ⟨j.seqno, 0, 0⟩ hne
  have hcm := fun bad => countMsg_snoc _ ⟨j.seqno, 0, 0⟩ bad hne
  simp only at hf hcm
  have hres : (((statsHooks ts rprime coin).completed i j t st).2.sync (ts i).taskid).rounds =
      countMsg j.seqno (isCommission j.release t j.hostFaults).1
        ((st.sync (ts i).taskid).rounds ++ [⟨j.seqno, 0, 0⟩]) := by
    simp only [statsHooks, Function.update_self, completedSync]
    rw [if_neg (by omega)]
    simp only [hadd, hf, hcrit, if_true]
  rw [hres, hcm]
  have hspec := isCommission_spec j.release t j.hostFaults hsort
  constructor
  · intro h
    rw [if_pos (hspec.mpr h)]
  · intro h
    rw [if_neg (fun hh => h (hspec.mp hh))]

theorem isCommission_two (a b : ℤ) (l : List ℤ) (hl : l.Pairwise (· ≤ ·)) (f₁ f₂ : ℤ)
    (h : [f₁, f₂].Sublist l) (h₁ : a ≤ f₁ ∧ f₁ ≤ b) (h₂ : a ≤ f₂ ∧ f₂ ≤ b) :
    (isCommission a b l).2.Pairwise (· ≤ ·) ∧ f₂ ∈ (isCommission a b l).2 := by
  induction l with
  | nil => simp at h
  | cons f fs ih =>
    obtain ⟨p1, p2⟩ := List.pairwise_cons.mp hl
    have hmem : f₂ ∈ fs := by
      rcases List.cons_sublist_cons'.mp h with h | ⟨_, h⟩
      · exact h.subset (by simp)
      · exact h.subset (by simp)
    unfold isCommission
    have hb : ¬ b < f := by
      have := p1 _ hmem
      have h4 : f ≤ f₁ := by
        rcases List.mem_cons.mp (h.subset (show f₁ ∈ [f₁, f₂] by simp)) with h | h
        · omega
        · exact p1 _ h
      omega
    rw [if_neg hb]
    by_cases ha : a ≤ f ∧ f ≤ b
    · rw [if_pos ha]
      exact ⟨p2, hmem⟩
    · rw [if_neg ha]
      apply ih p2
      rcases List.cons_sublist_cons'.mp h with h | ⟨rfl, h⟩
      · exact h
      · exact absurd h₁ ha

/-- C118, asynchronous protocol: the first message of a new round of a critical task counts as
faulty if at least two host faults occur between its release and its transmission. -/
theorem C118_async_partial (rprime : ℕ) (hr : 0 < rprime) (coin : ℕ → Bool) (i : Fin n) (j : Job)
    (t : ℕ) (st : Stats) (hcrit : (ts i).critical = true) (hsort : j.hostFaults.Pairwise (· ≤ ·))
    (hlate : (st.async (ts i).taskid).latest < j.seqno)
    (hnew : ∀ r ∈ (st.async (ts i).taskid).rounds, r.seqno < j.seqno)
    (f₁ f₂ : ℤ) (hf : [f₁, f₂].Sublist j.hostFaults) (h₁ : j.release ≤ f₁ ∧ f₁ ≤ t)
    (h₂ : j.release ≤ f₂ ∧ f₂ ≤ t) :
    let info := ((statsHooks ts rprime coin).completed i j t st).2.async (ts i).taskid
    info.ok = (st.async (ts i).taskid).ok ∧
      info.rounds = (st.async (ts i).taskid).rounds ++ [⟨j.seqno, 0, 1⟩] := by
  have hfs : ∃ fs : List ℤ, (completedSync (ts i) j t (st.sync (ts i).taskid)).1 = fs ∧
      (isCommission j.release t fs).1 = true := by
    refine ⟨_, rfl, ?_⟩
    have hmem : f₂ ∈ j.hostFaults := hf.subset (by simp)
    unfold completedSync
    split_ifs
    · exact (isCommission_spec _ _ _ hsort).mpr ⟨f₂, hmem, h₂⟩
    all_goals
      simp only
      split
      · exact (isCommission_spec _ _ _ hsort).mpr ⟨f₂, hmem, h₂⟩
      · obtain ⟨h3, h4⟩ := isCommission_two j.release t j.hostFaults hsort f₁ f₂ hf h₁ h₂
        first
          | exact (isCommission_spec _ _ _ h3).mpr ⟨f₂, h4, h₂⟩
          | exact (isCommission_spec _ _ _ hsort).mpr ⟨f₂, hmem, h₂⟩
  obtain ⟨fs, hfs, hcom⟩ := hfs
  have hadd : addRound j.seqno (st.async (ts i).taskid).rounds =
      (st.async (ts i).taskid).rounds ++ [⟨j.seqno, 0, 0⟩] := by
    unfold addRound
    cases hl : (st.async (ts i).taskid).rounds.getLast? with
    | none => rfl
    | some r =>
      simp only
      rw [if_pos (hnew r (List.mem_of_getLast? hl))]
  have hne : ∀ x ∈ (st.async (ts i).taskid).rounds, x.seqno ≠ (⟨j.seqno, 0, 0⟩ : Round).seqno := by
    intro x hx
    have := hnew x hx
    simp only
    omega
  have hfr := find_snoc _ ⟨j.seqno, 0, 0⟩ hne
  have hcm := countMsg_snoc _ ⟨j.seqno, 0, 0⟩ true hne
  simp only [if_true] at hfr hcm
  simp only [statsHooks, Function.update_self, completedAsync, hfs]
  rw [if_neg (by omega)]
  simp only [hadd, hfr, hcrit, if_true, hcom, hcm]
  rw [if_neg (by omega)]
  exact ⟨rfl, rfl⟩

/-- C118: host faults at times 2 and 3. -/
example : (simulateUntil criticalMsg (statsHooks criticalMsg 1 fun _ => true) (firstOrder criticalMsg)
      0 20 100 (ready criticalMsg [] (fun _ => [2, 3]) Stats.init)).map
        (fun s => ((s.stats.sync 1).faulty, (s.stats.async 1).faulty)) = some (1, 1) := by
  decide +kernel

/-! ### C119: iterations -/

/-- The average; undefined if there are no values or one of them is undefined. -/
def average (l : List (Option ℚ)) : Option ℚ :=
  if l = [] ∨ none ∈ l then none else some ((l.map fun p => p.getD 0).sum / l.length)

theorem fold_plus (l : List (Option ℚ)) (a : ℚ) : l.foldl plus (some a) =
    if none ∈ l then none else some (a + (l.map fun p => p.getD 0).sum) := by
  have hnone : ∀ l : List (Option ℚ), l.foldl plus none = none := by
    intro l
    induction l with
    | nil => rfl
    | cons p l ih => simpa [plus] using ih
  induction l generalizing a with
  | nil => simp
  | cons p l ih =>
    cases p with
    | none => simp [plus, hnone]
    | some q =>
      rw [List.foldl_cons, plus, ih]
      by_cases h : none ∈ l
      · simp [h]
      · simp [h, add_assoc]

/-- What one iteration does when it is simulated on its own. -/
def alone (ts : Fin n → Msg) (rprime : ℕ) (ord : List ℕ → (Fin n → List ℤ) → Order n)
    (boot end_ fuel : ℕ) (d : Draw n) : Option (Sim n Stats) :=
  simulateUntil ts (statsHooks ts rprime d.coin) (ord d.bus (hostFaults ts d)) boot end_ fuel
    (ready ts d.bus (hostFaults ts d) Stats.init)

theorem alone_free (ts : Fin n → Msg) (rprime : ℕ) (ord : List ℕ → (Fin n → List ℤ) → Order n)
    (boot end_ fuel : ℕ) (d : Draw n) (h1 : d.bus = []) (h2 : hostFaults ts d = fun _ => [])
    (coin : ℕ → Bool) : alone ts rprime ord boot end_ fuel d =
      simulateUntil ts (statsHooks ts rprime coin) (ord [] fun _ => []) boot end_ fuel
        (ready ts [] (fun _ => []) Stats.init) := by
  unfold alone
  rw [h1, h2]
  apply simulate_calm (coin_agree rprime d.coin coin)
  refine ⟨?_, fun _ => rfl⟩
  intro tid
  simp [ready, Stats.init, Clean]

theorem iterations_sum (ts : Fin n → Msg) (rprime : ℕ) (ord : List ℕ → (Fin n → List ℤ) → Order n)
    (boot end_ fuel : ℕ) : ∀ (ds : List (Draw n)) (acc acc' : Acc n),
    acc.sim = ready ts [] (fun _ => []) Stats.init →
    iterations ts rprime ord boot end_ fuel ds acc = some acc' →
    acc'.sim = ready ts [] (fun _ => []) Stats.init ∧ acc.free ≤ acc'.free ∧
    ∀ (p q : ℕ → Option ℚ), (0 < acc'.free → ∃ r coin, simulateUntil ts (statsHooks ts rprime coin)
        (ord [] fun _ => []) boot end_ fuel (ready ts [] (fun _ => []) Stats.init) = some r ∧
        ∀ tid, p tid = (r.stats.sync tid).prob ∧ q tid = (r.stats.async tid).prob) →
      ∃ rs, List.Forall₂ (fun d r => alone ts rprime ord boot end_ fuel d = some r) ds rs ∧
      ∀ tid, plus (acc'.sync tid) (times acc'.free (p tid)) =
          (rs.map fun r => (r.stats.sync tid).prob).foldl plus
            (plus (acc.sync tid) (times acc.free (p tid))) ∧
        plus (acc'.async tid) (times acc'.free (q tid)) =
          (rs.map fun r => (r.stats.async tid).prob).foldl plus
            (plus (acc.async tid) (times acc.free (q tid))) := by
  intro ds
  induction ds with
  | nil =>
    intro acc acc' h0 h
    simp only [iterations, Option.some.injEq] at h
    subst h
    exact ⟨h0, le_rfl, fun p q _ => ⟨[], List.Forall₂.nil, fun tid => ⟨rfl, rfl⟩⟩⟩
  | cons d ds ih =>
    intro acc acc' h0 h
    simp only [iterations, Option.bind_eq_some_iff] at h
    obtain ⟨acc₁, h1, h2⟩ := h
    unfold iteration at h1
    simp only [h0, generate_eq] at h1
    by_cases hff : faultFree ts (ready ts d.bus (hostFaults ts d) Stats.init) = true
    · rw [if_pos hff] at h1
      simp only [Option.some.injEq] at h1
      subst h1
      obtain ⟨i1, i2, i3⟩ := ih _ acc' (reset_eq _) h2
      simp only at i2
      refine ⟨i1, by omega, ?_⟩
      intro p q hpq
      obtain ⟨rs, j1, j2⟩ := i3 p q hpq
      obtain ⟨r, coin, k1, k2⟩ := hpq (by omega)
      obtain ⟨f1, f2⟩ := (faultFree_iff d).mp hff
      refine ⟨r :: rs, List.Forall₂.cons ?_ j1, ?_⟩
      · rw [alone_free ts rprime ord boot end_ fuel d f1 f2 coin]
        exact k1
      · intro tid
        obtain ⟨l1, l2⟩ := j2 tid
        obtain ⟨m1, m2⟩ := k2 tid
        simp only [times_succ] at l1 l2
        rw [l1, l2]
        simp only [List.map_cons, List.foldl_cons, ← m1, ← m2, plus_assoc]
        exact ⟨trivial, trivial⟩
    · rw [if_neg hff] at h1
      obtain ⟨r, k1, rfl⟩ := Option.map_eq_some_iff.mp h1
      obtain ⟨i1, i2, i3⟩ := ih _ acc' (reset_eq _) h2
      refine ⟨i1, i2, ?_⟩
      intro p q hpq
      obtain ⟨rs, j1, j2⟩ := i3 p q hpq
      refine ⟨r :: rs, List.Forall₂.cons k1 j1, ?_⟩
      intro tid
      obtain ⟨l1, l2⟩ := j2 tid
      rw [l1, l2]
      simp only [List.map_cons, List.foldl_cons]
      have hswap : ∀ a b c : Option ℚ, plus (plus a b) c = plus (plus a c) b := by
        intro a b c
        rw [plus_assoc, plus_comm b, ← plus_assoc]
      rw [hswap, hswap (acc.async tid)]
      exact ⟨rfl, rfl⟩

/-- C119. The reported probabilities are the averages of those of the iterations, each
simulated on its own (whether or not it has faults). -/
theorem C119_average (rprime : ℕ) (ord : List ℕ → (Fin n → List ℤ) → Order n)
    (boot end_ fuel : ℕ) (ds : List (Draw n)) (coin : ℕ → Bool) (ps pa : ℕ → Option ℚ)
    (h : simulateForTardiness ts rprime ord boot end_ fuel ds coin = some (ps, pa)) :
    ∃ rs : List (Sim n Stats), List.Forall₂ (fun d r => simulateUntil ts (statsHooks ts rprime d.coin)
      (ord d.bus fun i => if (ts i).critical then d.host i else []) boot end_ fuel
      (ready ts d.bus (fun i => if (ts i).critical then d.host i else []) Stats.init) = some r) ds rs ∧
    ∀ tid, ps tid = average (rs.map fun r => (r.stats.sync tid).prob) ∧
      pa tid = average (rs.map fun r => (r.stats.async tid).prob) := by
  have havg : ∀ (l : List (Option ℚ)), l.length = ds.length →
      (if ds.length = 0 then none else (l.foldl plus (some 0)).map fun q => q / (ds.length : ℚ)) =
        average l := by
    intro l hl
    rw [fold_plus]
    unfold average
    by_cases h0 : l = []
    · subst h0
      simp only [List.length_nil] at hl
      rw [if_pos hl.symm, if_pos (Or.inl rfl)]
    · have hlen : ds.length ≠ 0 := by
        rw [← hl]
        exact fun hh => h0 (List.length_eq_zero_iff.mp hh)
      rw [if_neg hlen]
      by_cases hn : none ∈ l
      · rw [if_pos hn, if_pos (Or.inr hn)]
        rfl
      · rw [if_neg hn, if_neg (by simp [h0, hn]), hl]
        simp
  unfold simulateForTardiness at h
  simp only [Option.bind_eq_some_iff] at h
  obtain ⟨acc, h1, h2⟩ := h
  obtain ⟨i1, _, i3⟩ := iterations_sum ts rprime ord boot end_ fuel ds _ acc rfl h1
  have hstart : ∀ p, plus (some 0) (times 0 p) = some 0 := by
    intro p
    simp [times, plus]
  by_cases hfree : acc.free > 0
  · rw [if_pos hfree, i1] at h2
    obtain ⟨r, h3, h4⟩ := Option.map_eq_some_iff.mp h2
    simp only [Prod.mk.injEq] at h4
    obtain ⟨rs, j1, j2⟩ := i3 (fun tid => (r.stats.sync tid).prob) (fun tid => (r.stats.async tid).prob)
      (fun _ => ⟨r, coin, h3, fun _ => ⟨rfl, rfl⟩⟩)
    refine ⟨rs, j1, ?_⟩
    intro tid
    have hlen := j1.length_eq
    obtain ⟨l1, l2⟩ := j2 tid
    have ht : ∀ p : Option ℚ, times acc.free p = p.map fun q => q * (acc.free : ℚ) := by
      intro p
      unfold times
      rw [if_neg (by omega)]
    simp only [hstart, ht] at l1 l2
    rw [← h4.1, ← h4.2]
    simp only [l1, l2]
    exact ⟨havg _ (by simp [hlen]), havg _ (by simp [hlen])⟩
  · rw [if_neg hfree] at h2
    simp only [Option.some.injEq, Prod.mk.injEq] at h2
    obtain ⟨rs, j1, j2⟩ := i3 (fun _ => none) (fun _ => none) (fun hh => absurd hh hfree)
    refine ⟨rs, j1, ?_⟩
    intro tid
    have hlen := j1.length_eq
    obtain ⟨l1, l2⟩ := j2 tid
    have hz : acc.free = 0 := by omega
    simp only [hstart, hz] at l1 l2
    simp only [times, if_true, plus_zero] at l1 l2
    rw [← h2.1, ← h2.2]
    simp only [l1, l2]
    exact ⟨havg _ (by simp [hlen]), havg _ (by simp [hlen])⟩

/-- C119. The computation ends. -/
theorem C119_ends (hP : ∀ i, 0 < (ts i).period) (rprime : ℕ)
    (ord : List ℕ → (Fin n → List ℤ) → Order n) (hord : ∀ b f, (ord b f).Proper ts)
    (boot end_ : ℕ) (ds : List (Draw n)) (hds : ∀ d ∈ ds, d.bus.Pairwise (· ≤ ·))
    (coin : ℕ → Bool) :
    ∃ F, ∀ fuel, F ≤ fuel →
      ∃ r, simulateForTardiness ts rprime ord boot end_ fuel ds coin = some r := by
  have hit : ∀ (ds : List (Draw n)), (∀ d ∈ ds, d.bus.Pairwise (· ≤ ·)) → ∃ F, ∀ fuel, F ≤ fuel →
      ∀ acc : Acc n, acc.sim = ready ts [] (fun _ => []) Stats.init →
      ∃ acc', iterations ts rprime ord boot end_ fuel ds acc = some acc' := by
    intro ds
    induction ds with
    | nil => exact fun _ => ⟨0, fun _ _ acc _ => ⟨acc, rfl⟩⟩
    | cons d ds ih =>
      intro hd
      obtain ⟨F₁, h1⟩ := ih (fun d' hd' => hd d' (List.mem_cons_of_mem _ hd'))
      obtain ⟨F₂, s, h2⟩ := C114_ends (hooks := statsHooks ts rprime d.coin)
        (hord d.bus (hostFaults ts d)) hP boot end_ d.bus (hd d List.mem_cons_self) (hostFaults ts d)
        Stats.init
      refine ⟨F₁ + F₂, fun fuel hf acc h0 => ?_⟩
      simp only [iterations, Option.bind_eq_some_iff, iteration, h0, generate_eq]
      by_cases hff : faultFree ts (ready ts d.bus (hostFaults ts d) Stats.init) = true
      · rw [if_pos hff]
        obtain ⟨acc', ha⟩ := h1 fuel (by omega)
          { acc with
            free := acc.free + 1
            sim := reset ts (ready ts d.bus (hostFaults ts d) Stats.init) } (reset_eq _)
        exact ⟨acc', _, rfl, ha⟩
      · rw [if_neg hff]
        have h3 := h2 fuel (by omega)
        obtain ⟨acc', ha⟩ := h1 fuel (by omega)
          { acc with
            sync := fun tid => plus (acc.sync tid) (s.stats.sync tid).prob
            async := fun tid => plus (acc.async tid) (s.stats.async tid).prob
            sim := reset ts s } (reset_eq _)
        refine ⟨acc', _, ?_, ha⟩
        exact Option.map_eq_some_iff.mpr ⟨s, h3, rfl⟩
  obtain ⟨F₁, h1⟩ := hit ds hds
  obtain ⟨F₂, s, h2⟩ := C114_ends (hooks := statsHooks ts rprime coin) (hord [] fun _ => []) hP boot end_
    [] (by simp) (fun _ => []) Stats.init
  refine ⟨F₁ + F₂, fun fuel hf => ?_⟩
  obtain ⟨acc, ha⟩ := h1 fuel (by omega)
    ⟨fun _ => some 0, fun _ => some 0, 0, ready ts [] (fun _ => []) Stats.init⟩ rfl
  have hsim := (iterations_sum ts rprime ord boot end_ fuel ds _ acc rfl ha).1
  have h3 := h2 fuel (by omega)
  unfold simulateForTardiness
  rw [ha]
  simp only [Option.bind_some, hsim]
  by_cases hfree : acc.free > 0
  · rw [if_pos hfree, h3]
    exact ⟨_, rfl⟩
  · rw [if_neg hfree]
    exact ⟨_, rfl⟩

/-- C119. A coin decides about one round only: if the outcome depends on it, the next round uses
another one. -/
theorem C119_fresh (rprime : ℕ) (coin coin' : ℕ → Bool) (i : Fin n) (k t : ℕ) (st : Stats)
    (h : ((statsHooks ts rprime coin).expired i k t st).sync ≠
      ((statsHooks ts rprime coin').expired i k t st).sync) :
    coin st.draws ≠ coin' st.draws ∧
    st.draws < ((statsHooks ts rprime coin).expired i k t st).draws := by
  simp only [statsHooks] at h ⊢
  constructor
  · intro hc
    rw [hc] at h
    exact h rfl
  · by_contra hd
    apply h
    congr 1
    generalize st.sync (ts i).taskid = info at hd ⊢
    generalize coin st.draws = c at hd ⊢
    generalize coin' st.draws = c' at hd ⊢
    unfold expiredSync at hd ⊢
    by_cases h1 : k ≤ info.latest
    · rw [if_pos h1, if_pos h1]
    · rw [if_neg h1] at hd ⊢
      rw [if_neg h1]
      cases hf : findRound k info.rounds with
      | none => rfl
      | some r =>
        simp only [hf] at hd ⊢
        by_cases h2 : r.ok > r.faulty
        · rw [if_pos h2, if_pos h2]
        · rw [if_neg h2] at hd ⊢
          rw [if_neg h2]
          by_cases h3 : r.ok = r.faulty
          · rw [if_pos h3] at hd
            exfalso
            cases c <;> simp at hd
          · rw [if_neg h3, if_neg h3]

example : ((statsHooks criticalMsg 2 fun _ => true).expired 0 1 20
      ⟨fun _ => ⟨0, 0, 0, [⟨1, 1, 1⟩]⟩, fun _ => ⟨0, 0, 0, []⟩, 0⟩).sync ≠
    ((statsHooks criticalMsg 2 fun _ => false).expired 0 1 20
      ⟨fun _ => ⟨0, 0, 0, [⟨1, 1, 1⟩]⟩, fun _ => ⟨0, 0, 0, []⟩, 0⟩).sync := by
  intro h
  have := congrFun h 1
  revert this
  decide

/-- C119: two iterations, one of them without faults. -/
example : (simulateForTardiness criticalMsg 1 (fun _ _ => firstOrder criticalMsg) 0 65 100
    [⟨[], fun _ => [], fun _ => true⟩, ⟨[], fun _ => [2], fun _ => true⟩] (fun _ => true)).map
      (fun r => (r.1 1, r.2 1)) = some (some (1 / 6), some 0) := by
  decide +kernel

/-- C119: no round is counted in a short simulation, and the probability is undefined. -/
theorem C119_undefined : ∃ ps pa, simulateForTardiness criticalMsg 1
    (fun _ _ => firstOrder criticalMsg) 0 4 100 [⟨[], fun _ => [], fun _ => true⟩] (fun _ => true) =
      some (ps, pa) ∧ ps 1 = none := by
  have h : (simulateForTardiness criticalMsg 1 (fun _ _ => firstOrder criticalMsg) 0 4 100
      [⟨[], fun _ => [], fun _ => true⟩] (fun _ => true)).map (fun r => r.1 1) = some none := by
    decide +kernel
  obtain ⟨r, h1, h2⟩ := Option.map_eq_some_iff.mp h
  exact ⟨r.1, r.2, h1, h2⟩

end Verif.CanSim
