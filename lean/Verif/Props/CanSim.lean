/-
C114, C115, C116: the CAN bus simulator transmits in priority order, but may transmit a job
just before its release; completion times are those of the simulated transmissions.
-/
import Verif.Lemmas.CanSimEnd
import Mathlib.Data.Fin.VecNotation
import Mathlib.Tactic.IntervalCases

namespace Verif.CanSim
open Verif.Spec

variable {n : ℕ} {σ : Type} {ts : Fin n → Msg} {hooks : Hooks n σ} {ord : Order n}

/-- C114 (a). The simulation ends, whatever faults occur. -/
theorem C114_ends (hord : ord.Proper ts) (hP : ∀ i, 0 < (ts i).period) (boot end_ : ℕ)
    (retr : List ℕ) (hr : retr.Pairwise (· ≤ ·)) (hf : Fin n → List ℤ) (st : σ) :
    ∃ F s, ∀ fuel, F ≤ fuel →
      simulateUntil ts hooks ord boot end_ fuel (ready ts retr hf st) = some s :=
  simulate_ends hord hP boot end_ (end_ + 3) _ (ready_rest retr hr hf st)
    (by simp [ready]) (Or.inr (by simp [ready]))

/-- C114 (b). Whatever faults occur and whatever the callbacks do, what can be observed on the
simulated bus is legal. -/
theorem C114_legal (hord : ord.Proper ts) (hP : ∀ i, 0 < (ts i).period) (boot end_ fuel : ℕ)
    (retr : List ℕ) (hr : retr.Pairwise (· ≤ ·)) (hf : Fin n → List ℤ) (st : σ) (s : Sim n σ)
    (h : simulateUntil ts hooks ord boot end_ fuel (ready ts retr hf st) = some s) :
    LegalLog (messages ts) retr s.log :=
  (simulate_rest hord hP boot end_ fuel _ s (ready_rest retr hr hf st) h).1.inv.legal

/-- C114 (c). Unless a callback aborts the simulation, nothing is missing. -/
theorem C114_complete (hord : ord.Proper ts) (hP : ∀ i, 0 < (ts i).period) (boot end_ fuel : ℕ)
    (retr : List ℕ) (hr : retr.Pairwise (· ≤ ·)) (hf : Fin n → List ℤ) (st : σ) (s : Sim n σ)
    (h : simulateUntil ts hooks ord boot end_ fuel (ready ts retr hf st) = some s)
    (ha : hooks.aborted s.stats = false) :
    CompleteLog (messages ts) s.log end_ := by
  obtain ⟨hs, hend⟩ := simulate_rest hord hP boot end_ fuel _ s (ready_rest retr hr hf st) h
  rw [ha] at hend
  simp only [Bool.false_eq_true, false_or] at hend
  constructor
  · intro i k t₀ htr
    cases hb : s.bus with
    | none => rw [(hs.inv.idle hb).1] at htr; simp at htr
    | some i' =>
      obtain ⟨t₁, h1, _, h3, _⟩ := hs.inv.busy i' hb
      rw [h1] at htr
      simp only [Option.some.injEq, Prod.mk.injEq] at htr
      obtain ⟨rfl, _, rfl⟩ := htr
      rcases hend with hend | hend
      · have := hs.future _ h3
        show end_ < t₁ + (ts i').wcet
        simp only at this
        omega
      · rw [hend] at h3
        simp at h3
  · intro htr t _ ht j hw
    cases hb : s.bus with
    | some i' =>
      obtain ⟨t₁, h1, _⟩ := hs.inv.busy i' hb
      rw [h1] at htr
      simp at htr
    | none =>
      have hpl := hs.inv.place_none j
      unfold CanSim.place at hpl
      rw [hb, hs.empty hb] at hpl
      simp only [List.count_nil, reduceCtorEq, if_false, Nat.zero_add] at hpl
      have hpos : 0 < s.events.countP (fun e => decide (e.2 = .release j)) := by omega
      obtain ⟨⟨r, e⟩, hmem', he⟩ := List.countP_pos_iff.mp hpos
      simp only [decide_eq_true_eq] at he
      subst he
      obtain ⟨h1, h2⟩ := hs.inv.ev r j hmem'
      have h3 := hs.future _ hmem'
      have h4 : lastDone s.log j * (ts j).period ≤ t := hw
      rw [(hs.inv.rel j).2, h2] at h1
      simp only [Nat.add_sub_cancel] at h1
      rcases hend with hend | hend
      · simp only at h3
        omega
      · rw [hend] at hmem'
        simp at hmem'

/-! ### C115: the transmitted job is the most recent one -/

/-- C115. Each transmission is of the job that is the most recent one one time unit later: its
release is at most one time unit after the start of the transmission. -/
theorem C115_start_partial (hord : ord.Proper ts) (hP : ∀ i, 0 < (ts i).period)
    (boot end_ fuel : ℕ) (retr : List ℕ) (hr : retr.Pairwise (· ≤ ·)) (hf : Fin n → List ℤ)
    (st : σ) (s : Sim n σ)
    (h : simulateUntil ts hooks ord boot end_ fuel (ready ts retr hf st) = some s)
    (i : Fin n) (k t : ℕ) (hk : BusEvent.start i k t ∈ s.log) :
    1 ≤ k ∧ (k - 1) * (ts i).period ≤ t + 1 ∧ t + 1 < k * (ts i).period :=
  (simulate_rest hord hP boot end_ fuel _ s (ready_rest retr hr hf st) h).1.inv.starts i k t hk

/-- C115. Unless a release is exactly one time unit after the start of a transmission, the
transmitted job is the most recent one that was released. -/
theorem C115_most_recent_partial (hord : ord.Proper ts) (hP : ∀ i, 0 < (ts i).period)
    (boot end_ fuel : ℕ) (retr : List ℕ) (hr : retr.Pairwise (· ≤ ·)) (hf : Fin n → List ℤ)
    (st : σ) (s : Sim n σ)
    (h : simulateUntil ts hooks ord boot end_ fuel (ready ts retr hf st) = some s)
    (i : Fin n) (k t : ℕ) (hk : BusEvent.start i k t ∈ s.log)
    (hne : ¬ (ts i).period ∣ t + 1) :
    (k - 1) * (ts i).period ≤ t ∧ t < k * (ts i).period := by
  obtain ⟨_, h2, h3⟩ := C115_start_partial hord hP boot end_ fuel retr hr hf st s h i k t hk
  refine ⟨?_, by omega⟩
  by_contra hlt
  apply hne
  exact ⟨k - 1, by rw [Nat.mul_comm]; omega⟩

/-- The first element with the least key. -/
def firstMin {α : Type} (key : α → ℕ) (l : List α) : Option α :=
  l.foldl (fun b e => match b with
    | none => some e
    | some b => if key e < key b then some e else some b) none

/-- The queues of the examples: among equal elements, the first one. -/
def firstOrder (ts : Fin n → Msg) : Order n where
  event _ l := firstMin (fun e => e.1) l
  msg _ l := firstMin (fun i => (ts i).priority) l

theorem first_fold {α : Type} (key : α → ℕ) : ∀ (l : List α) (b : α),
    ∃ e, firstMin key (b :: l) = some e ∧
      (e = b ∨ e ∈ l) ∧ key e ≤ key b ∧ ∀ e' ∈ l, key e ≤ key e' := by
  intro l
  induction l with
  | nil => intro b; exact ⟨b, rfl, Or.inl rfl, le_rfl, by simp⟩
  | cons a l ih =>
    intro b
    by_cases h : key a < key b
    · have hf : firstMin key (b :: a :: l) = firstMin key (a :: l) := by
        simp only [firstMin, List.foldl_cons, if_pos h]
      rw [hf]
      obtain ⟨e, h1, h2, h3, h4⟩ := ih a
      refine ⟨e, h1, Or.inr ?_, by omega, ?_⟩
      · rcases h2 with rfl | h2
        · exact List.mem_cons_self
        · exact List.mem_cons_of_mem _ h2
      · intro e' he'
        rcases List.mem_cons.mp he' with rfl | he'
        · exact h3
        · exact h4 e' he'
    · have hf : firstMin key (b :: a :: l) = firstMin key (b :: l) := by
        simp only [firstMin, List.foldl_cons, if_neg h]
      rw [hf]
      obtain ⟨e, h1, h2, h3, h4⟩ := ih b
      refine ⟨e, h1, ?_, h3, ?_⟩
      · rcases h2 with rfl | h2
        · exact Or.inl rfl
        · exact Or.inr (List.mem_cons_of_mem _ h2)
      · intro e' he'
        rcases List.mem_cons.mp he' with rfl | he'
        · omega
        · exact h4 e' he'

theorem firstOrder_proper (ts : Fin n → Msg) : (firstOrder ts).Proper ts := by
  refine ⟨fun _ => rfl, ?_, fun _ => rfl, ?_⟩
  · intro _ l hl
    cases l with
    | nil => exact absurd rfl hl
    | cons a l =>
      obtain ⟨e, h1, h2, h3, h4⟩ := first_fold (fun e : ℕ × Ev n => e.1) l a
      refine ⟨e, h1, ?_, ?_⟩
      · rcases h2 with rfl | h2
        · exact List.mem_cons_self
        · exact List.mem_cons_of_mem _ h2
      · intro e' he'
        rcases List.mem_cons.mp he' with rfl | he'
        · exact h3
        · exact h4 e' he'
  · intro _ l hl
    cases l with
    | nil => exact absurd rfl hl
    | cons a l =>
      obtain ⟨e, h1, h2, h3, h4⟩ := first_fold (fun i : Fin n => (ts i).priority) l a
      refine ⟨e, h1, ?_, ?_⟩
      · rcases h2 with rfl | h2
        · exact List.mem_cons_self
        · exact List.mem_cons_of_mem _ h2
      · intro e' he'
        rcases List.mem_cons.mp he' with rfl | he'
        · exact h3
        · exact h4 e' he'

/-- An observer that does nothing. -/
def noHooks (n : ℕ) : Hooks n Unit := ⟨fun _ j _ st => (j.hostFaults, st), fun _ _ _ st => st,
  fun _ => false⟩

/-- Two messages; the second one has to wait until time 7, just before its second release. -/
def earlyMsgs : Fin 2 → Msg := ![⟨4, 100, 100, 1, 1, false⟩, ⟨2, 8, 8, 2, 2, false⟩]

/-- C115 is violated: a transmission of job 2 starts at time 7, although job 2 is released at
time 8 (and job 1 is never transmitted). -/
theorem C115_violated : ∃ (n : ℕ) (ts : Fin n → Msg) (ord : Order n) (s : Sim n Unit) (i : Fin n)
    (k t : ℕ), ord.Proper ts ∧ (∀ i, 0 < (ts i).period) ∧
    simulateUntil ts (noHooks n) ord 0 20 50 (ready ts [] (fun _ => []) ()) = some s ∧
    BusEvent.start i k t ∈ s.log ∧ t < (k - 1) * (ts i).period ∧
    ∀ t', BusEvent.sent i (k - 1) t' ∉ s.log := by
  have h : (simulateUntil earlyMsgs (noHooks 2) (firstOrder earlyMsgs) 0 20 50
      (ready earlyMsgs [] (fun _ => []) ())).map (fun s => s.log) =
      some [.start 0 1 0, .sent 0 1 4, .start 1 2 7, .sent 1 2 9, .start 1 3 16, .sent 1 3 18] := by
    decide +kernel
  obtain ⟨s, hs, hlog⟩ := Option.map_eq_some_iff.mp h
  refine ⟨2, earlyMsgs, firstOrder earlyMsgs, s, 1, 2, 7, firstOrder_proper _, by decide, hs, ?_,
    by decide, ?_⟩
  · rw [hlog]; decide
  · intro t' ht
    rw [hlog] at ht
    simp at ht

/-- Two messages; the second one is subject to host faults. -/
def faultMsgs : Fin 2 → Msg := ![⟨5, 40, 40, 1, 0, false⟩, ⟨9, 60, 60, 2, 1, true⟩]

/-- C114, C115: a simulation with a bus fault at time 3 and a host fault at time 55 (rebooting
takes 10 time units, so that the second job of the second message is omitted). -/
example : (simulateUntil faultMsgs (noHooks 2) (firstOrder faultMsgs) 10 130 100
      (ready faultMsgs [3] ![[], [55]] ())).map (fun s => s.log) =
    some [.start 0 1 0, .failed 0 1 5, .start 0 1 34, .sent 0 1 39, .start 0 2 42, .sent 0 2 47,
      .start 1 1 50, .sent 1 1 59, .omitted 1 2 62, .start 0 3 80, .sent 0 3 85,
      .start 0 4 120, .sent 0 4 125, .start 1 3 128, .sent 1 3 137] := by decide +kernel

/-! ### C116: completion times -/

/-- The job asked for. -/
def Asked (ts : Fin n → Msg) (taskid priority seqno : ℕ) (i : Fin n) (k : ℕ) : Prop :=
  (ts i).taskid = taskid ∧ (ts i).priority = priority ∧ k = seqno

theorem completion_follows (ts : Fin n → Msg) (taskid priority seqno : ℕ) :
    Follows (completionHooks ts taskid priority seqno) (fun st L =>
      match st with
      | some t => ∃ i k, Asked ts taskid priority seqno i k ∧ BusEvent.sent i k t ∈ L
      | none => ∀ i k t, Asked ts taskid priority seqno i k → BusEvent.sent i k t ∉ L) := by
  have key : ∀ (st : Option ℕ) (L : List (BusEvent n)) (e : BusEvent n),
      (∀ i k t, e ≠ .sent i k t ∨ ¬ Asked ts taskid priority seqno i k) →
      (match st with
      | some t => ∃ i k, Asked ts taskid priority seqno i k ∧ BusEvent.sent i k t ∈ L
      | none => ∀ i k t, Asked ts taskid priority seqno i k → BusEvent.sent i k t ∉ L) →
      (match st with
      | some t => ∃ i k, Asked ts taskid priority seqno i k ∧ BusEvent.sent i k t ∈ L ++ [e]
      | none => ∀ i k t, Asked ts taskid priority seqno i k → BusEvent.sent i k t ∉ L ++ [e]) := by
    intro st L e he h
    cases st with
    | some t =>
      obtain ⟨i, k, h1, h2⟩ := h
      exact ⟨i, k, h1, List.mem_append_left _ h2⟩
    | none =>
      intro i k t ha hm
      rcases List.mem_append.mp hm with hm | hm
      · exact h i k t ha hm
      · simp only [List.mem_singleton] at hm
        rcases he i k t with h1 | h1
        · exact h1 hm.symm
        · exact h1 ha
  refine ⟨?_, ?_, ?_, ?_, fun _ _ _ _ _ h => h⟩
  · intro st L i k t h
    exact key st L _ (by simp) h
  · intro st L i k t h
    exact key st L _ (by simp) h
  · intro st L i k t h
    exact key st L _ (by simp) h
  · intro st L i j t h
    by_cases ha : (ts i).taskid = taskid ∧ (ts i).priority = priority ∧ j.seqno = seqno
    · simp only [completionHooks, if_pos ha]
      exact ⟨i, j.seqno, ha, by simp⟩
    · simp only [completionHooks, if_neg ha]
      apply key st L _ _ h
      intro i' k' t'
      by_cases he : BusEvent.sent i j.seqno t = BusEvent.sent i' k' t'
      · right
        simp only [BusEvent.sent.injEq] at he
        obtain ⟨rfl, rfl, rfl⟩ := he
        exact ha
      · exact Or.inl he

/-- C116 (a). The computation of a completion time ends. -/
theorem C116_ends (hord : ord.Proper ts) (hP : ∀ i, 0 < (ts i).period)
    (end_ taskid priority seqno : ℕ) :
    ∃ F r, ∀ fuel, F ≤ fuel → getJobCompletionTime ts ord fuel end_ taskid priority seqno =
      some r := by
  obtain ⟨F, s, h⟩ := C114_ends (hooks := completionHooks ts taskid priority seqno) hord hP 0 end_
    [] (by simp) (fun _ => []) none
  exact ⟨F, s.stats, fun fuel hf => by rw [getJobCompletionTime, h fuel hf]; rfl⟩

/-- C116 (b). A completion time that is set is the time at which the job is completely
transmitted, in a legal sequence of transmissions without faults. -/
theorem C116_value (hord : ord.Proper ts) (hP : ∀ i, 0 < (ts i).period)
    (fuel end_ taskid priority seqno t : ℕ)
    (h : getJobCompletionTime ts ord fuel end_ taskid priority seqno = some (some t)) :
    ∃ L i k, LegalLog (messages ts) [] L ∧ Asked ts taskid priority seqno i k ∧
      BusEvent.sent i k t ∈ L := by
  obtain ⟨s, hs, hst⟩ := Option.map_eq_some_iff.mp h
  have h1 := C114_legal hord hP 0 end_ fuel [] (by simp) (fun _ => []) none s hs
  have h2 := simulate_follows (completion_follows ts taskid priority seqno) 0 end_ fuel _ s
    (by simp [ready]) hs
  rw [hst] at h2
  obtain ⟨i, k, h3, h4⟩ := h2
  exact ⟨s.log, i, k, h1, h3, h4⟩

/-- C116 (c). If the value is not set, the job is not transmitted by the end of the
simulation. -/
theorem C116_unset_partial (hord : ord.Proper ts) (hP : ∀ i, 0 < (ts i).period)
    (fuel end_ taskid priority seqno : ℕ)
    (h : getJobCompletionTime ts ord fuel end_ taskid priority seqno = some none) :
    ∃ L, LegalLog (messages ts) [] L ∧ CompleteLog (messages ts) L end_ ∧
      ∀ i k t, Asked ts taskid priority seqno i k → BusEvent.sent i k t ∉ L := by
  obtain ⟨s, hs, hst⟩ := Option.map_eq_some_iff.mp h
  have h1 := C114_legal hord hP 0 end_ fuel [] (by simp) (fun _ => []) none s hs
  have h2 := simulate_follows (completion_follows ts taskid priority seqno) 0 end_ fuel _ s
    (by simp [ready]) hs
  have h3 := C114_complete hord hP 0 end_ fuel [] (by simp) (fun _ => []) none s hs
    (by rw [hst]; rfl)
  rw [hst] at h2
  exact ⟨s.log, h1, h3, h2⟩

/-- C116 is violated: asked for a job that is released and overwritten within the simulated
interval, the function returns a value that was never set. -/
theorem C116_violated : ∃ (n : ℕ) (ts : Fin n → Msg) (ord : Order n) (i : Fin n) (k end_ : ℕ),
    ord.Proper ts ∧ (∀ i, 0 < (ts i).period) ∧ 1 ≤ k ∧ k * (ts i).period ≤ end_ ∧
    ∃ F, ∀ fuel, F ≤ fuel →
      getJobCompletionTime ts ord fuel end_ (ts i).taskid (ts i).priority k = some none := by
  refine ⟨2, earlyMsgs, firstOrder earlyMsgs, 1, 1, 20, firstOrder_proper _, by decide, by decide,
    by decide, ?_⟩
  refine ⟨50, fun fuel hf => ?_⟩
  have h50 : getJobCompletionTime earlyMsgs (firstOrder earlyMsgs) 50 20
      (earlyMsgs 1).taskid (earlyMsgs 1).priority 1 = some none := by decide +kernel
  obtain ⟨s, hs, hst⟩ := Option.map_eq_some_iff.mp h50
  exact Option.map_eq_some_iff.mpr ⟨s, simulate_mono 0 20 50 fuel _ s hf hs, hst⟩

/-- C116: the second job of the second message is completely transmitted at time 69. -/
example : getJobCompletionTime faultMsgs (firstOrder faultMsgs) 100 130 1 2 2 = some (some 69) := by
  decide +kernel

end Verif.CanSim
