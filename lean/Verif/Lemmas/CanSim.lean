/-
Lemmas about the CAN bus simulator: an invariant that holds between the steps of a simulation.
-/
import Verif.Model.CanSim
import Mathlib.Algebra.Order.Group.Nat
import Mathlib.Data.List.Count
import Mathlib.Data.List.Basic
import Mathlib.Tactic.Linarith

namespace Verif.CanSim
open Verif.Spec

variable {n : ℕ} {σ : Type}

/-- The messages, as the specification sees them. -/
def messages (ts : Fin n → Msg) : BusMessages n where
  length i := (ts i).wcet
  period i := (ts i).period
  prio i := (ts i).priority
  critical i := (ts i).critical

/-- The queues return an element of minimal time, and one of highest priority. -/
structure Order.Proper (ts : Fin n → Msg) (ord : Order n) : Prop where
  event_nil : ∀ c, ord.event c [] = none
  event : ∀ c l, l ≠ [] → ∃ e, ord.event c l = some e ∧ e ∈ l ∧ ∀ e' ∈ l, e.1 ≤ e'.1
  msg_nil : ∀ c, ord.msg c [] = none
  msg : ∀ c l, l ≠ [] → ∃ i, ord.msg c l = some i ∧ i ∈ l ∧
    ∀ j ∈ l, (ts i).priority ≤ (ts j).priority

theorem Order.Proper.event_some {ts : Fin n → Msg} {ord : Order n} (h : ord.Proper ts) {c l e}
    (he : ord.event c l = some e) : e ∈ l ∧ ∀ e' ∈ l, e.1 ≤ e'.1 := by
  by_cases hl : l = []
  · subst hl; rw [h.event_nil] at he; simp at he
  · obtain ⟨e', h1, h2⟩ := h.event c l hl
    rw [he] at h1
    simp only [Option.some.injEq] at h1
    subst h1
    exact h2

theorem Order.Proper.event_none {ts : Fin n → Msg} {ord : Order n} (h : ord.Proper ts) {c l}
    (he : ord.event c l = none) : l = [] := by
  by_contra hl
  obtain ⟨e', h1, h2⟩ := h.event c l hl
  rw [he] at h1
  simp at h1

theorem Order.Proper.msg_some {ts : Fin n → Msg} {ord : Order n} (h : ord.Proper ts) {c l i}
    (he : ord.msg c l = some i) : i ∈ l ∧ ∀ j ∈ l, (ts i).priority ≤ (ts j).priority := by
  by_cases hl : l = []
  · subst hl; rw [h.msg_nil] at he; simp at he
  · obtain ⟨e', h1, h2⟩ := h.msg c l hl
    rw [he] at h1
    simp only [Option.some.injEq] at h1
    subst h1
    exact h2

theorem Order.Proper.msg_none {ts : Fin n → Msg} {ord : Order n} (h : ord.Proper ts) {c l}
    (he : ord.msg c l = none) : l = [] := by
  by_contra hl
  obtain ⟨e', h1, h2⟩ := h.msg c l hl
  rw [he] at h1
  simp at h1

/-! ### Observations -/

section Log
variable (L : List (BusEvent n)) (i j : Fin n) (k t : ℕ)

@[simp] theorem lastDone_start : lastDone (L ++ [.start j k t]) i = lastDone L i := by
  simp [lastDone]
@[simp] theorem lastDone_failed : lastDone (L ++ [.failed j k t]) i = lastDone L i := by
  simp [lastDone]
@[simp] theorem lastDone_sent : lastDone (L ++ [.sent j k t]) i = if j = i then k else lastDone L i := by
  simp [lastDone]
@[simp] theorem lastDone_omitted :
    lastDone (L ++ [.omitted j k t]) i = if j = i then k else lastDone L i := by
  simp [lastDone]
@[simp] theorem transmitting_start : transmitting (L ++ [.start i k t]) = some (i, k, t) := by
  simp [transmitting]
@[simp] theorem transmitting_failed : transmitting (L ++ [.failed i k t]) = none := by
  simp [transmitting]
@[simp] theorem transmitting_sent : transmitting (L ++ [.sent i k t]) = none := by
  simp [transmitting]
@[simp] theorem transmitting_omitted :
    transmitting (L ++ [.omitted i k t]) = transmitting L := by
  simp [transmitting]
@[simp] theorem usableFrom_start : usableFrom (L ++ [.start i k t]) = usableFrom L := by
  simp [usableFrom]
@[simp] theorem usableFrom_failed : usableFrom (L ++ [.failed i k t]) = t + 29 := by
  simp [usableFrom]
@[simp] theorem usableFrom_sent : usableFrom (L ++ [.sent i k t]) = t + 3 := by
  simp [usableFrom]
@[simp] theorem usableFrom_omitted : usableFrom (L ++ [.omitted i k t]) = usableFrom L := by
  simp [usableFrom]

end Log

theorem legalLog_nil (M : BusMessages n) (faults : List ℕ) : LegalLog M faults [] := by
  intro L₁ e L₂ h
  simp at h

theorem legalLog_snoc {M : BusMessages n} {faults : List ℕ} {L : List (BusEvent n)}
    (h : LegalLog M faults L) {e : BusEvent n} (he : LegalEvent M faults L e) :
    LegalLog M faults (L ++ [e]) := by
  intro L₁ e' L₂ heq
  rcases List.eq_nil_or_concat L₂ with rfl | ⟨L₃, x, rfl⟩
  · have := List.append_inj' heq rfl
    obtain ⟨rfl, h2⟩ := this
    simp only [List.cons.injEq, and_true] at h2
    rw [← h2]
    exact he
  · have heq' : L ++ [e] = (L₁ ++ e' :: L₃) ++ [x] := by
      rw [heq]; simp
    have := List.append_inj' heq' rfl
    exact h _ _ _ this.1

/-- When the current transmission started, or when the bus is usable again. -/
def mark (L : List (BusEvent n)) : ℕ :=
  match transmitting L with
  | some x => x.2.2
  | none => usableFrom L

/-! ### Faults -/

theorem isRetransmission_spec (a b : ℕ) (l : List ℕ) (hl : l.Pairwise (· ≤ ·)) :
    ((isRetransmission a b l).1 = true ↔ ∃ f ∈ l, a ≤ f ∧ f ≤ b) ∧
    (isRetransmission a b l).2.Pairwise (· ≤ ·) ∧
    (∀ f ∈ (isRetransmission a b l).2, f ∈ l) ∧
    ∀ f ∈ l, a ≤ f → b < f → f ∈ (isRetransmission a b l).2 := by
  induction l with
  | nil => simp [isRetransmission]
  | cons f fs ih =>
    have hfs := List.pairwise_cons.mp hl
    unfold isRetransmission
    by_cases h1 : b < f
    · rw [if_pos h1]
      refine ⟨?_, hl, fun f hf => hf, fun f hf _ _ => hf⟩
      simp only [Bool.false_eq_true, false_iff]
      rintro ⟨g, hg, _, hgb⟩
      rcases List.mem_cons.mp hg with rfl | hg
      · omega
      · have := hfs.1 g hg
        omega
    · rw [if_neg h1]
      by_cases h2 : a ≤ f ∧ f ≤ b
      · rw [if_pos h2]
        refine ⟨?_, hfs.2, fun g hg => List.mem_cons_of_mem _ hg, ?_⟩
        · simp only [true_iff]
          exact ⟨f, List.mem_cons_self, h2⟩
        · intro g hg _ hb
          rcases List.mem_cons.mp hg with rfl | hg
          · omega
          · exact hg
      · rw [if_neg h2]
        obtain ⟨i1, i2, i3, i4⟩ := ih hfs.2
        refine ⟨?_, i2, fun g hg => List.mem_cons_of_mem _ (i3 g hg), ?_⟩
        · rw [i1]
          constructor
          · rintro ⟨g, hg, h⟩
            exact ⟨g, List.mem_cons_of_mem _ hg, h⟩
          · rintro ⟨g, hg, h⟩
            rcases List.mem_cons.mp hg with rfl | hg
            · exact absurd h h2
            · exact ⟨g, hg, h⟩
        · intro g hg ha hb
          rcases List.mem_cons.mp hg with rfl | hg
          · omega
          · exact i4 g hg ha hb

/-! ### The invariant -/

/-- How often a job is in the system: waiting, on the bus, or in the event queue. -/
def place (s : Sim n σ) (i : Fin n) : ℕ :=
  s.pending.count i + (if s.bus = some i then 1 else 0) +
    s.events.countP (fun e => decide (e.2 = .release i))

/-- The invariant; the job `hole` is being moved. -/
structure Inv (ts : Fin n → Msg) (faults : List ℕ) (hole : Option (Fin n)) (s : Sim n σ) :
    Prop where
  place : ∀ i, place s i = if hole = some i then 0 else 1
  cost : ∀ i, (s.job i).cost = (ts i).wcet
  rel : ∀ i, 1 ≤ (s.job i).seqno ∧ (s.job i).release = ((s.job i).seqno - 1) * (ts i).period
  ev : ∀ r i, (r, Ev.release i) ∈ s.events →
    r = (s.job i).release ∧ (s.job i).seqno = lastDone s.log i + 1
  moved : ∀ i, hole = some i → (s.job i).seqno = lastDone s.log i + 1
  off : ∀ i, s.bus ≠ some i → (s.job i).allocation = 0 ∧ lastDone s.log i < (s.job i).seqno
  pend : ∀ i ∈ s.pending, (s.job i).release ≤ s.now
  legal : LegalLog (messages ts) faults s.log
  starts : ∀ i k t, BusEvent.start i k t ∈ s.log →
    1 ≤ k ∧ (k - 1) * (ts i).period ≤ t + 1 ∧ t + 1 < k * (ts i).period
  idle : s.bus = none → transmitting s.log = none ∧
    ∀ t, usableFrom s.log ≤ t → t < s.now → ∀ j, ¬ Waiting (messages ts) s.log j t
  busy : ∀ i, s.bus = some i → ∃ t₀, transmitting s.log = some (i, (s.job i).seqno, t₀) ∧
    (s.job i).allocation + t₀ = s.now ∧ (t₀ + (ts i).wcet, Ev.dummy) ∈ s.events ∧
    lastDone s.log i < (s.job i).seqno ∧ (s.job i).release ≤ t₀ + 1
  sorted : s.retransmissions.Pairwise (· ≤ ·)
  sub : ∀ f ∈ s.retransmissions, f ∈ faults
  left : ∀ f ∈ faults, mark s.log ≤ f → f ∈ s.retransmissions

theorem mark_omitted (L : List (BusEvent n)) (i : Fin n) (k t : ℕ) :
    mark (L ++ [.omitted i k t]) = mark L := by
  simp [mark]

theorem countP_append_release (l : List (ℕ × Ev n)) (e : ℕ × Ev n) (i : Fin n) :
    (l ++ [e]).countP (fun e => decide (e.2 = .release i)) =
      l.countP (fun e => decide (e.2 = .release i)) + if e.2 = .release i then 1 else 0 := by
  rw [List.countP_append, List.countP_cons, List.countP_nil]
  simp

variable {ts : Fin n → Msg} {faults : List ℕ} {hooks : Hooks n σ} {ord : Order n}

/-- Adding an event that releases nothing. -/
theorem Inv.push {hole : Option (Fin n)} {s : Sim n σ} (h : Inv ts faults hole s)
    (e : ℕ × Ev n) (he : ∀ i, e.2 ≠ .release i) :
    Inv ts faults hole { s with events := s.events ++ [e] } := by
  refine { h with place := ?_, ev := ?_, busy := ?_ }
  · intro i
    rw [← h.place i]
    unfold CanSim.place
    simp only [countP_append_release, if_neg (he i), Nat.add_zero]
  · intro r i hri
    rcases List.mem_append.mp hri with hri | hri
    · exact h.ev r i hri
    · simp only [List.mem_singleton] at hri
      exact absurd (by rw [← hri]) (he i)
  · intro i hi
    obtain ⟨t₀, h1, h2, h3, h4⟩ := h.busy i hi
    exact ⟨t₀, h1, h2, List.mem_append_left _ h3, h4⟩

/-- Changing the host faults of a job. -/
theorem Inv.hostFaults {hole : Option (Fin n)} {s : Sim n σ} (h : Inv ts faults hole s)
    (i : Fin n) (fs : List ℤ) :
    Inv ts faults hole (s.setJob i { s.job i with hostFaults := fs }) := by
  have key : ∀ j, ((s.setJob i { s.job i with hostFaults := fs }).job j).release =
      (s.job j).release ∧ ((s.setJob i { s.job i with hostFaults := fs }).job j).cost =
      (s.job j).cost ∧ ((s.setJob i { s.job i with hostFaults := fs }).job j).allocation =
      (s.job j).allocation ∧ ((s.setJob i { s.job i with hostFaults := fs }).job j).seqno =
      (s.job j).seqno := by
    intro j
    simp only [Sim.setJob]
    by_cases hj : j = i
    · subst hj; simp
    · simp [Function.update_of_ne hj]
  refine {
    place := h.place, cost := ?_, rel := ?_, ev := ?_, moved := ?_, off := ?_, pend := ?_,
    legal := h.legal, starts := h.starts, idle := h.idle, busy := ?_, sorted := h.sorted,
    sub := h.sub, left := h.left }
  · intro j; rw [(key j).2.1]; exact h.cost j
  · intro j; rw [(key j).2.2.2, (key j).1]; exact h.rel j
  · intro r j hj; rw [(key j).2.2.2, (key j).1]; exact h.ev r j hj
  · intro j hj; rw [(key j).2.2.2]; exact h.moved j hj
  · intro j hj; rw [(key j).2.2.2, (key j).2.2.1]; exact h.off j hj
  · intro j hj; rw [(key j).1]; exact h.pend j hj
  · intro j hj; rw [(key j).2.2.2, (key j).2.2.1, (key j).1]; exact h.busy j hj

/-- A moved job becomes pending. -/
theorem Inv.toPending {i : Fin n} {s : Sim n σ} (h : Inv ts faults (some i) s)
    (hr : (s.job i).release ≤ s.now) :
    Inv ts faults none { s with pending := s.pending ++ [i] } := by
  refine { h with place := ?_, moved := by simp, pend := ?_ }
  · intro j
    have := h.place j
    unfold CanSim.place at this ⊢
    simp only [List.count_append, List.count_singleton, Option.some.injEq] at this ⊢
    by_cases hj : i = j
    · subst hj; simp only [beq_self_eq_true, if_true, reduceCtorEq, if_false] at this ⊢; omega
    · simp [hj] at this ⊢; omega
  · intro j hj
    rcases List.mem_append.mp hj with hj | hj
    · exact h.pend j hj
    · simp only [List.mem_singleton] at hj
      subst hj
      exact hr

/-- A moved job becomes an event. -/
theorem Inv.toEvent {i : Fin n} {s : Sim n σ} (h : Inv ts faults (some i) s) :
    Inv ts faults none { s with events := s.events ++ [((s.job i).release, .release i)] } := by
  refine { h with place := ?_, ev := ?_, moved := by simp, busy := ?_ }
  · intro j
    have := h.place j
    unfold CanSim.place at this ⊢
    simp only [countP_append_release, Option.some.injEq, Ev.release.injEq] at this ⊢
    by_cases hj : i = j
    · subst hj; simp only [beq_self_eq_true, if_true, reduceCtorEq, if_false] at this ⊢; omega
    · simp [hj] at this ⊢; omega
  · intro r j hj
    rcases List.mem_append.mp hj with hj | hj
    · exact h.ev r j hj
    · simp only [List.mem_singleton, Prod.mk.injEq, Ev.release.injEq] at hj
      obtain ⟨rfl, rfl⟩ := hj
      exact ⟨rfl, h.moved _ rfl⟩
  · intro j hj
    obtain ⟨t₀, h1, h2, h3, h4⟩ := h.busy j hj
    exact ⟨t₀, h1, h2, List.mem_append_left _ h3, h4⟩

theorem Inv.not_bus {i : Fin n} {s : Sim n σ} (h : Inv ts faults (some i) s) :
    s.bus ≠ some i ∧ i ∉ s.pending ∧ ∀ r, (r, Ev.release i) ∉ s.events := by
  have := h.place i
  rw [if_pos rfl] at this
  unfold CanSim.place at this
  refine ⟨?_, ?_, ?_⟩
  · intro hb
    rw [if_pos hb] at this
    omega
  · intro hm
    have := List.count_pos_iff.mpr hm
    omega
  · intro r hr
    have h0 : s.events.countP (fun e => decide (e.2 = .release i)) = 0 := by omega
    rw [List.countP_eq_zero] at h0
    exact h0 _ hr (by simp)

/-- A moved job is omitted. -/
theorem Inv.omit {i : Fin n} {s : Sim n σ} (h : Inv ts faults (some i) s) (fs : List ℤ)
    (hr : (s.job i).release ≤ s.now) (hc : (ts i).critical = true) :
    Inv ts faults (some i)
      (({ s with log := s.log ++ [.omitted i (s.job i).seqno s.now] } : Sim n σ).setJob i
        (({ s.job i with hostFaults := fs } : Job).initNext (ts i))) := by
  obtain ⟨nb, np, ne⟩ := h.not_bus
  have hm := h.moved i rfl
  have hrel := (h.rel i).2
  have hP : lastDone s.log i * (ts i).period = (s.job i).release := by
    rw [hrel, hm]; simp
  have hW : ∀ j t, Waiting (messages ts) (s.log ++ [.omitted i (s.job i).seqno s.now]) j t →
      Waiting (messages ts) s.log j t := by
    intro j t hw
    unfold Waiting at hw ⊢
    rw [lastDone_omitted] at hw
    by_cases hj : i = j
    · subst hj
      rw [if_pos rfl] at hw
      refine le_trans ?_ hw
      rw [hm]
      exact Nat.mul_le_mul_right _ (Nat.le_succ _)
    · rwa [if_neg hj] at hw
  have hne : ∀ j, j ≠ i → (if i = j then (s.job i).seqno else lastDone s.log j) =
      lastDone s.log j := fun j hj => if_neg (Ne.symm hj)
  refine {
    place := h.place, cost := ?_, rel := ?_, ev := ?_, moved := ?_, off := ?_, pend := ?_,
    legal := ?_, starts := ?_, idle := ?_, busy := ?_, sorted := h.sorted,
    sub := h.sub, left := ?_ }
  · intro j
    simp only [Sim.setJob]
    by_cases hj : j = i
    · subst hj; simp [Job.initNext, h.cost]
    · rw [Function.update_of_ne hj]; exact h.cost j
  · intro j
    simp only [Sim.setJob]
    by_cases hj : j = i
    · subst hj
      simp only [Function.update_self, Job.initNext]
      refine ⟨by omega, ?_⟩
      rw [← hP, hm]
      simp [Nat.add_mul]
    · rw [Function.update_of_ne hj]; exact h.rel j
  · intro r j hj
    have hji : j ≠ i := by rintro rfl; exact ne r hj
    simp only [Sim.setJob, Function.update_of_ne hji, lastDone_omitted, hne j hji]
    exact h.ev r j hj
  · intro j hj
    simp only [Option.some.injEq] at hj
    subst hj
    simp [Sim.setJob, Job.initNext]
  · intro j hj
    simp only [Sim.setJob, lastDone_omitted]
    by_cases hji : j = i
    · subst hji; simp [Job.initNext]
    · rw [Function.update_of_ne hji, hne j hji]; exact h.off j hj
  · intro j hj
    have hji : j ≠ i := by rintro rfl; exact np hj
    simp only [Sim.setJob, Function.update_of_ne hji]
    exact h.pend j hj
  · apply legalLog_snoc h.legal
    refine ⟨?_, hm, ?_, hc⟩
    · intro k' t₀ ht
      cases hb : s.bus with
      | none => rw [(h.idle hb).1] at ht; simp at ht
      | some i' =>
        obtain ⟨t₁, h1, _⟩ := h.busy i' hb
        rw [h1] at ht
        simp only [Option.some.injEq, Prod.mk.injEq] at ht
        exact nb (by rw [hb, ht.1])
    · rw [hrel] at hr
      exact hr
  · intro j k t hj
    simp only [Sim.setJob, List.mem_append, List.mem_singleton, reduceCtorEq, or_false] at hj
    exact h.starts j k t hj
  · intro hb
    obtain ⟨h1, h2⟩ := h.idle hb
    refine ⟨?_, ?_⟩
    · simp only [Sim.setJob, transmitting_omitted]; exact h1
    · intro t ht ht' j hw
      simp only [Sim.setJob, usableFrom_omitted] at ht ht' hw
      exact h2 t ht ht' j (hW j t hw)
  · intro j hj
    have hji : j ≠ i := by rintro rfl; exact nb hj
    simp only [Sim.setJob, Function.update_of_ne hji, lastDone_omitted, hne j hji,
      transmitting_omitted]
    exact h.busy j hj
  · intro f hf hm
    simp only [Sim.setJob, mark_omitted] at hm
    exact h.left f hf hm

/-- What `addReady` leaves alone. -/
structure Same (i : Fin n) (s s' : Sim n σ) : Prop where
  now : s'.now = s.now
  bus : s'.bus = s.bus
  usable : usableFrom s'.log = usableFrom s.log
  job : ∀ j, j ≠ i → s'.job j = s.job j
  stats : s'.stats = s.stats
  taken : s'.taken = s.taken

theorem addReady_inv (boot : ℕ) : ∀ (fuel : ℕ) (i : Fin n) (s s' : Sim n σ),
    Inv ts faults (some i) s → (s.job i).release ≤ s.now →
    addReady ts boot fuel s i = some s' → Inv ts faults none s' ∧ Same i s s' := by
  intro fuel
  induction fuel with
  | zero => intro i s s' _ _ h; simp [addReady] at h
  | succ fuel ih =>
    intro i s s' hs hr h
    unfold addReady at h
    simp only at h
    have h1 : Inv ts faults (some i) { s with events :=
        s.events ++ [((s.job i).release + (ts i).deadline, Ev.deadline i (s.job i).seqno)] } :=
      hs.push _ (by simp)
    by_cases hc : (ts i).critical = true
    · rw [if_pos hc] at h
      generalize hom : isOmission ((s.job i).release - (boot : ℤ)) (s.job i).release
        (s.job i).hostFaults = om at h
      by_cases ho : om.1 = true
      · rw [if_pos ho] at h
        have h2 := h1.omit om.2 hr hc
        simp only at h2
        split_ifs at h with hn
        · simp only [Option.some.injEq] at h
          have h3 := h2.toEvent
          simp only [Sim.setJob, Function.update_self] at h3 h
          rw [← h]
          refine ⟨h3, rfl, rfl, ?_, ?_, rfl, rfl⟩
          · simp
          · intro j hj; simp [Function.update_of_ne hj]
        · have h3 := ih i _ s' h2 (by
            simp only [Sim.setJob, Function.update_self] at hn ⊢
            omega) h
          refine ⟨h3.1, h3.2.now, h3.2.bus, ?_, ?_, h3.2.stats, h3.2.taken⟩
          · rw [h3.2.usable]; simp [Sim.setJob]
          · intro j hj
            rw [h3.2.job j hj]
            simp [Sim.setJob, Function.update_of_ne hj]
      · rw [if_neg ho] at h
        simp only [Option.some.injEq] at h
        have h2 := h1.hostFaults i om.2
        have h3 := h2.toPending (by simp [Sim.setJob]; exact hr)
        rw [← h]
        refine ⟨h3, rfl, rfl, rfl, ?_, rfl, rfl⟩
        intro j hj
        simp [Sim.setJob, Function.update_of_ne hj]
    · rw [if_neg hc] at h
      simp only [Option.some.injEq] at h
      have h3 := h1.toPending hr
      rw [← h]
      exact ⟨h3, rfl, rfl, rfl, fun _ _ => rfl, rfl, rfl⟩

theorem addRelease_inv (boot fuel : ℕ) (i : Fin n) (s s' : Sim n σ)
    (hs : Inv ts faults (some i) s) (h : addRelease ts boot fuel s i = some s') :
    Inv ts faults none s' ∧ Same i s s' := by
  unfold addRelease at h
  split_ifs at h with hn
  · simp only [Option.some.injEq] at h
    rw [← h]
    exact ⟨hs.toEvent, rfl, rfl, rfl, fun _ _ => rfl, rfl, rfl⟩
  · exact addReady_inv boot fuel i s s' hs (by omega) h

theorem Inv.stats {hole : Option (Fin n)} {s : Sim n σ} (h : Inv ts faults hole s) (st : σ)
    (c : ℕ) : Inv ts faults hole { s with stats := st, taken := c } :=
  ⟨h.place, h.cost, h.rel, h.ev, h.moved, h.off, h.pend, h.legal, h.starts, h.idle, h.busy,
    h.sorted, h.sub, h.left⟩

/-- The transmission under way does not end now. -/
def Later (ts : Fin n → Msg) (s : Sim n σ) : Prop :=
  ∀ i, s.bus = some i → (s.job i).allocation < (ts i).wcet

theorem Inv.pop {s : Sim n σ} (h : Inv ts faults none s) (hl : Later ts s) (e : ℕ × Ev n)
    (hmem : e ∈ s.events) (he : e.1 ≤ s.now) (hole : Option (Fin n))
    (hh : ∀ i, e.2 = .release i ↔ hole = some i) :
    Inv ts faults hole { s with events := s.events.erase e } := by
  refine { h with place := ?_, ev := ?_, moved := ?_, busy := ?_ }
  · intro i
    have hp := h.place i
    rw [if_neg (by simp)] at hp
    unfold CanSim.place at hp ⊢
    simp only [List.countP_erase]
    by_cases hi : e.2 = .release i
    · have h1 : 0 < s.events.countP (fun e => decide (e.2 = .release i)) :=
        List.countP_pos_iff.mpr ⟨e, hmem, by simpa using hi⟩
      have a1 : (if e ∈ s.events ∧ decide (e.2 = .release i) = true then 1 else 0) = 1 :=
        if_pos ⟨hmem, by simpa using hi⟩
      have a2 : (if hole = some i then 0 else 1) = 0 := if_pos ((hh i).mp hi)
      rw [a1, a2]
      omega
    · have a1 : (if e ∈ s.events ∧ decide (e.2 = .release i) = true then 1 else 0) = 0 :=
        if_neg (fun hc => hi (by simpa using hc.2))
      have a2 : (if hole = some i then 0 else 1) = 1 := if_neg (fun hc => hi ((hh i).mpr hc))
      rw [a1, a2]
      exact hp
  · intro r i hri
    exact h.ev r i (List.mem_of_mem_erase hri)
  · intro i hi
    have : (e.1, Ev.release i) ∈ s.events := by
      rw [← (hh i).mpr hi]; exact hmem
    exact (h.ev _ _ this).2
  · intro i hi
    obtain ⟨t₀, h1, h2, h3, h4⟩ := h.busy i hi
    refine ⟨t₀, h1, h2, ?_, h4⟩
    refine (List.mem_erase_of_ne ?_).mpr h3
    intro heq
    have := hl i hi
    have h5 : e.1 = t₀ + (ts i).wcet := by rw [← heq]
    omega

theorem fire_inv (hord : ord.Proper ts) (boot : ℕ) : ∀ (fuel : ℕ) (s s' : Sim n σ),
    Inv ts faults none s → Later ts s → fire ts hooks ord boot fuel s = some s' →
    Inv ts faults none s' ∧ Later ts s' ∧ s'.now = s.now ∧ s'.bus = s.bus ∧
      usableFrom s'.log = usableFrom s.log ∧ ∀ e ∈ s'.events, s.now < e.1 := by
  intro fuel
  induction fuel with
  | zero => intro s s' _ _ h; simp [fire] at h
  | succ fuel ih =>
    intro s s' hs hl h
    unfold fire at h
    cases he : ord.event s.taken s.events with
    | none =>
      rw [he] at h
      simp only [Option.some.injEq] at h
      subst h
      refine ⟨hs, hl, rfl, rfl, rfl, ?_⟩
      rw [hord.event_none he]
      simp
    | some e =>
      rw [he] at h
      simp only at h
      obtain ⟨hmem, hmin⟩ := hord.event_some he
      by_cases hgt : e.1 > s.now
      · rw [if_pos hgt] at h
        simp only [Option.some.injEq] at h
        subst h
        exact ⟨hs, hl, rfl, rfl, rfl, fun e' he' => lt_of_lt_of_le hgt (hmin e' he')⟩
      · rw [if_neg hgt] at h
        have hle : e.1 ≤ s.now := by omega
        cases hev : e.2 with
        | dummy =>
          rw [hev] at h
          simp only at h
          have h1 := (hs.pop hl e hmem hle none (by simp [hev])).stats s.stats (s.taken + 1)
          have h2 := ih _ s' h1 hl h
          exact h2
        | deadline i k =>
          rw [hev] at h
          simp only at h
          have h1 := (hs.pop hl e hmem hle none (by simp [hev])).stats
            (hooks.expired i k s.now s.stats) (s.taken + 1)
          have h2 := ih _ s' h1 hl h
          exact h2
        | release i =>
          rw [hev] at h
          simp only [Option.bind_eq_some_iff] at h
          obtain ⟨s₁, ha, hf⟩ := h
          have hmem' : (e.1, Ev.release i) ∈ s.events := by rw [← hev]; exact hmem
          have hrel := (hs.ev _ _ hmem').1
          have h1 := (hs.pop hl e hmem hle (some i) (by
            intro j; rw [hev]; simp)).stats s.stats (s.taken + 1)
          obtain ⟨h2, h3⟩ := addReady_inv boot fuel i _ s₁ h1 (by
            show (s.job i).release ≤ s.now
            omega) ha
          have hl' : Later ts s₁ := by
            intro j hj
            rw [h3.bus] at hj
            have hne : j ≠ i := by
              rintro rfl
              exact h1.not_bus.1 hj
            rw [h3.job j hne]
            exact hl j hj
          obtain ⟨i1, i2, i3, i4, i5, i6⟩ := ih s₁ s' h2 hl' hf
          refine ⟨i1, i2, i3.trans h3.now, i4.trans h3.bus, i5.trans h3.usable, ?_⟩
          rw [← show s₁.now = s.now from h3.now]
          exact i6

/-- What holds between two calls of `advance`. -/
structure Rest (ts : Fin n → Msg) (faults : List ℕ) (s : Sim n σ) : Prop where
  inv : Inv ts faults none s
  usable : s.bus = none → usableFrom s.log ≤ s.now
  empty : s.bus = none → s.pending = []
  future : ∀ e ∈ s.events, s.now ≤ e.1

theorem schedule_rest (hord : ord.Proper ts) (hP : ∀ i, 0 < (ts i).period) (s : Sim n σ)
    (hs : Inv ts faults none s) (hu : s.bus = none → usableFrom s.log ≤ s.now)
    (hq : ∀ e ∈ s.events, s.now < e.1) : Rest ts faults (schedule ts ord s) := by
  unfold schedule
  cases hb : s.bus with
  | some i =>
    simp only
    exact ⟨hs, hu, by simp [hb], fun e he => (hq e he).le⟩
  | none =>
    cases hm : ord.msg s.taken s.pending with
    | none =>
      simp only
      exact ⟨hs, hu, fun _ => hord.msg_none hm, fun e he => (hq e he).le⟩
    | some i =>
      simp only
      obtain ⟨hmem, hprio⟩ := hord.msg_some hm
      obtain ⟨htr, hnw⟩ := hs.idle hb
      obtain ⟨halloc, hlast⟩ := hs.off i (by rw [hb]; simp)
      obtain ⟨hseq, hrel⟩ := hs.rel i
      have hpend := hs.pend i hmem
      have hcount : s.pending.count i = 1 ∧
          s.events.countP (fun e => decide (e.2 = .release i)) = 0 := by
        have h1 := hs.place i
        rw [if_neg (by simp)] at h1
        unfold CanSim.place at h1
        rw [hb] at h1
        simp only [reduceCtorEq, if_false] at h1
        have h2 := List.count_pos_iff.mpr hmem
        omega
      -- the new job
      have hk : (s.job i).seqno ≤ (s.now + 1) / (ts i).period + 1 := by
        have h1 : (s.job i).seqno - 1 ≤ (s.now + 1) / (ts i).period := by
          rw [Nat.le_div_iff_mul_le (hP i), ← hrel]
          omega
        omega
      have hj : (s.job i).updateSeqno (ts i) s.now =
          { s.job i with
            seqno := (s.now + 1) / (ts i).period + 1
            release := ((s.now + 1) / (ts i).period + 1 - 1) * (ts i).period } := by
        unfold Job.updateSeqno
        simp only
        split_ifs with hgt
        · rfl
        · have heq : (s.now + 1) / (ts i).period + 1 = (s.job i).seqno := by omega
          rw [heq, ← hrel]
      rw [hj]
      simp only [Sim.setJob]
      refine ⟨?_, by simp, by simp, ?_⟩
      · refine {
          place := ?_, cost := ?_, rel := ?_, ev := ?_, moved := by simp, off := ?_, pend := ?_,
          legal := ?_, starts := ?_, idle := by simp, busy := ?_, sorted := hs.sorted,
          sub := hs.sub, left := ?_ }
        · intro j
          have hpl := hs.place j
          rw [if_neg (by simp)] at hpl
          rw [if_neg (by simp)]
          unfold CanSim.place at hpl ⊢
          rw [hb] at hpl
          simp only [countP_append_release, reduceCtorEq, if_false, Option.some.injEq] at hpl ⊢
          by_cases hji : i = j
          · subst hji
            rw [if_pos rfl, List.count_erase_self]
            omega
          · rw [if_neg hji, List.count_erase_of_ne (Ne.symm hji)]
            omega
        · intro j
          by_cases hji : j = i
          · subst hji; simp [hs.cost]
          · simp only [Function.update_of_ne hji]; exact hs.cost j
        · intro j
          by_cases hji : j = i
          · subst hji; simp
          · simp only [Function.update_of_ne hji]; exact hs.rel j
        · intro r j hrj
          rcases List.mem_append.mp hrj with hrj | hrj
          · have hji : j ≠ i := by
              intro hji
              have h0 := List.countP_eq_zero.mp hcount.2 _ hrj
              simp [hji] at h0
            simp only [Function.update_of_ne hji, lastDone_start]
            exact hs.ev r j hrj
          · simp at hrj
        · intro j hjb
          have hji : j ≠ i := by
            rintro rfl
            exact hjb rfl
          simp only [Function.update_of_ne hji, lastDone_start]
          exact hs.off j (by rw [hb]; simp)
        · intro j hjp
          have hji : j ≠ i := by
            rintro rfl
            have := List.count_pos_iff.mpr hjp
            rw [List.count_erase_self, hcount.1] at this
            omega
          simp only [Function.update_of_ne hji]
          exact hs.pend j (List.mem_of_mem_erase hjp)
        · apply legalLog_snoc hs.legal
          refine ⟨htr, hu hb, ?_, ?_, ?_, ?_⟩
          · show lastDone s.log i * (ts i).period ≤ s.now
            refine le_trans ?_ hpend
            rw [hrel]
            exact Nat.mul_le_mul_right _ (by omega)
          · intro j hw
            apply hprio
            by_contra hnp
            have hpl := hs.place j
            rw [if_neg (by simp)] at hpl
            unfold CanSim.place at hpl
            rw [hb, List.count_eq_zero_of_not_mem hnp] at hpl
            simp only [reduceCtorEq, if_false, Nat.zero_add] at hpl
            have hpos : 0 < s.events.countP (fun e => decide (e.2 = .release j)) := by omega
            obtain ⟨⟨r, e⟩, hmem', he⟩ := List.countP_pos_iff.mp hpos
            simp only [decide_eq_true_eq] at he
            subst he
            obtain ⟨h1, h2⟩ := hs.ev r j hmem'
            have h3 := hq _ hmem'
            have h4 : lastDone s.log j * (ts j).period ≤ s.now := hw
            rw [(hs.rel j).2, h2] at h1
            simp only [Nat.add_sub_cancel] at h1
            simp only at h3
            omega
          · omega
          · exact hnw
        · intro j k t hjk
          rcases List.mem_append.mp hjk with hjk | hjk
          · exact hs.starts j k t hjk
          · simp only [List.mem_singleton, BusEvent.start.injEq] at hjk
            obtain ⟨rfl, rfl, rfl⟩ := hjk
            refine ⟨by omega, ?_, ?_⟩
            · simp only [Nat.add_sub_cancel]
              exact Nat.div_mul_le_self _ _
            · rw [Nat.mul_comm]
              exact Nat.lt_mul_div_succ _ (hP j)
        · intro j hjb
          simp only [Option.some.injEq] at hjb
          subst hjb
          refine ⟨s.now, ?_, ?_, ?_, ?_, ?_⟩
          · simp
          · simp [halloc]
          · simp [halloc, hs.cost, Nat.add_comm]
          · simp only [lastDone_start, Function.update_self]; omega
          · simp only [Function.update_self, Nat.add_sub_cancel]
            exact Nat.div_mul_le_self _ _
        · intro f hf hmk
          apply hs.left f hf
          simp only [mark, transmitting_start] at hmk
          simp only [mark, htr]
          exact le_trans (hu hb) hmk
      · intro e he
        rcases List.mem_append.mp he with he | he
        · exact (hq e he).le
        · simp only [List.mem_singleton] at he
          rw [he]
          simp

theorem Inv.place_none {s : Sim n σ} (h : Inv ts faults none s) (j : Fin n) :
    CanSim.place s j = 1 := by
  rw [h.place j, if_neg (by simp)]

theorem finish_inv (boot fuel until_ : ℕ) (s s' : Sim n σ) (hs : Rest ts faults s)
    (hnow : s.now ≤ until_) (hmin : ∀ e ∈ s.events, until_ ≤ e.1)
    (h : finish ts hooks boot fuel (until_ - s.now) { s with now := until_ } = some s') :
    Inv ts faults none s' ∧ Later ts s' ∧ (s'.bus = none → usableFrom s'.log ≤ s'.now) ∧
      until_ ≤ s'.now := by
  have hi := hs.inv
  unfold finish at h
  cases hb : s.bus with
  | none =>
    simp only [hb, Option.some.injEq] at h
    subst h
    refine ⟨{ hi with place := ?_, off := ?_, pend := ?_, idle := ?_, busy := ?_ }, ?_, ?_, le_rfl⟩
    · intro i
      have := hi.place i
      unfold CanSim.place at this ⊢
      rw [hb] at this
      exact this
    · intro i _
      exact hi.off i (by rw [hb]; simp)
    · intro i hp
      exact le_trans (hi.pend i hp) hnow
    · intro _
      refine ⟨(hi.idle hb).1, ?_⟩
      intro t _ ht j hw
      simp only at ht hw
      have hpl := hi.place j
      rw [if_neg (by simp)] at hpl
      unfold CanSim.place at hpl
      rw [hb, hs.empty hb] at hpl
      simp only [List.count_nil, reduceCtorEq, if_false, Nat.zero_add] at hpl
      have hpos : 0 < s.events.countP (fun e => decide (e.2 = .release j)) := by omega
      obtain ⟨⟨r, e⟩, hmem', he⟩ := List.countP_pos_iff.mp hpos
      simp only [decide_eq_true_eq] at he
      subst he
      obtain ⟨h1, h2⟩ := hi.ev r j hmem'
      have h3 := hmin _ hmem'
      have h4 : lastDone s.log j * (ts j).period ≤ t := hw
      rw [(hi.rel j).2, h2] at h1
      simp only [Nat.add_sub_cancel] at h1
      simp only at h3
      omega
    · intro i hbi
      simp only [hb] at hbi
      simp at hbi
    · intro i hbi
      simp only [hb] at hbi
      simp at hbi
    · intro _
      exact le_trans (hs.usable hb) hnow
  | some i =>
    simp only [hb] at h
    obtain ⟨t₀, htr, halloc, hdummy, hlast, hrelle⟩ := hi.busy i hb
    have hle := hmin _ hdummy
    simp only at hle
    have hcost := hi.cost i
    have hother : ∀ j, j ≠ i → s.bus ≠ some j := by
      intro j hj hc
      rw [hb] at hc
      simp only [Option.some.injEq] at hc
      exact hj hc.symm
    have hcount : s.pending.count i = 0 ∧
        s.events.countP (fun e => decide (e.2 = .release i)) = 0 := by
      have h1 := hi.place i
      rw [if_neg (by simp)] at h1
      unfold CanSim.place at h1
      rw [hb] at h1
      simp only [if_true] at h1
      omega
    have hne : ∀ r, (r, Ev.release i) ∉ s.events := by
      intro r hr
      have := List.countP_eq_zero.mp hcount.2 _ hr
      simp at this
    have hnp : i ∉ s.pending := by
      intro hp
      have := List.count_pos_iff.mpr hp
      omega
    have hcost' : ((s.setJob i { s.job i with
        allocation := (s.job i).allocation + (until_ - s.now) }).job i).cost = (ts i).wcet := by
      simp [Sim.setJob, hcost]
    simp only [Sim.setJob, Function.update_self] at h
    by_cases hc : (s.job i).cost ≤ (s.job i).allocation + (until_ - s.now)
    · rw [if_pos hc] at h
      have htime : until_ = t₀ + (ts i).wcet := by omega
      have hstart : until_ - (s.job i).cost = t₀ := by omega
      rw [hstart] at h
      obtain ⟨r1, r2, r3, r4⟩ := isRetransmission_spec t₀ until_ s.retransmissions hi.sorted
      generalize isRetransmission t₀ until_ s.retransmissions = r at h r1 r2 r3 r4
      have hhit : r.1 = true ↔ ∃ f ∈ faults, t₀ ≤ f ∧ f ≤ until_ := by
        rw [r1]
        constructor
        · rintro ⟨f, hf, h2⟩
          exact ⟨f, hi.sub f hf, h2⟩
        · rintro ⟨f, hf, h2⟩
          refine ⟨f, hi.left f hf ?_, h2⟩
          simp only [mark, htr]
          exact h2.1
      have hleft : ∀ f ∈ faults, until_ < f → f ∈ r.2 := by
        intro f hf hlt
        have h1 : f ∈ s.retransmissions := by
          apply hi.left f hf
          simp only [mark, htr]
          omega
        exact r4 f h1 (by omega) hlt
      by_cases hr : r.1 = true
      · rw [if_pos hr] at h
        simp only [retransmit, Sim.setJob, Function.update_self, Function.update_idem,
          Option.some.injEq] at h
        subst h
        refine ⟨?_, ?_, ?_, by simp⟩
        · refine {
            place := ?_, cost := ?_, rel := ?_, ev := ?_, moved := by simp, off := ?_, pend := ?_,
            legal := ?_, starts := ?_, idle := ?_, busy := by simp, sorted := r2,
            sub := fun f hf => hi.sub f (r3 f hf), left := ?_ }
          · intro j
            have hpl := hi.place_none j
            unfold CanSim.place at hpl ⊢
            rw [hb] at hpl
            simp only [List.count_append, List.count_singleton, reduceCtorEq, if_false,
              Option.some.injEq] at hpl ⊢
            by_cases hj : i = j
            · subst hj; simp only [beq_self_eq_true, if_true] at hpl ⊢; omega
            · simp only [if_neg hj, beq_iff_eq] at hpl ⊢; omega
          · intro j
            by_cases hj : j = i
            · subst hj; simp [hcost]
            · simp only [Function.update_of_ne hj]; exact hi.cost j
          · intro j
            by_cases hj : j = i
            · subst hj; simpa using hi.rel j
            · simp only [Function.update_of_ne hj]; exact hi.rel j
          · intro q j hj
            have hji : j ≠ i := by rintro rfl; exact hne q hj
            simp only [Function.update_of_ne hji, lastDone_failed]
            exact hi.ev q j hj
          · intro j _
            simp only [lastDone_failed]
            by_cases hj : j = i
            · subst hj; simpa using hlast
            · simp only [Function.update_of_ne hj]; exact hi.off j (hother j hj)
          · intro j hj
            by_cases hji : j = i
            · subst hji
              simp only [Function.update_self]
              omega
            · simp only [Function.update_of_ne hji]
              rcases List.mem_append.mp hj with hj | hj
              · have := hi.pend j hj
                omega
              · simp only [List.mem_singleton] at hj
                exact absurd hj hji
          · apply legalLog_snoc hi.legal
            exact ⟨t₀, htr, htime, hhit.mp hr⟩
          · intro j k t hj
            simp only [List.mem_append, List.mem_singleton, reduceCtorEq, or_false] at hj
            exact hi.starts j k t hj
          · intro _
            refine ⟨by simp, ?_⟩
            intro t h1 h2
            simp only [usableFrom_failed] at h1 h2
            omega
          · intro f hf hm
            simp only [mark, transmitting_failed, usableFrom_failed] at hm
            exact hleft f hf (by omega)
        · intro j hj
          simp at hj
        · intro _
          simp
      · rw [if_neg hr] at h
        simp only [completed, Sim.setJob, Function.update_self, Function.update_idem,
          Option.map_eq_some_iff] at h
        obtain ⟨s₁, ha, rfl⟩ := h
        have hinv := addRelease_inv (ts := ts) (faults := faults) boot fuel i _ s₁ ?_ ha
        · obtain ⟨h1, h2⟩ := hinv
          have hbus : s₁.bus = none := h2.bus
          have hn1 : s₁.now = until_ := h2.now
          have hu1 : usableFrom s₁.log = until_ + 3 := by
            rw [h2.usable]; simp
          refine ⟨{ h1 with pend := ?_, idle := ?_, busy := ?_ }, ?_, ?_, ?_⟩
          · intro j hj
            have := h1.pend j hj
            show (s₁.job j).release ≤ s₁.now + 3
            omega
          · intro _
            refine ⟨(h1.idle hbus).1, ?_⟩
            intro t ht ht'
            simp only at ht ht'
            omega
          · intro j hj
            simp only [hbus] at hj
            simp at hj
          · intro j hj
            simp only [hbus] at hj
            simp at hj
          · intro _
            simp only
            omega
          · simp only
            omega
        · refine {
            place := ?_, cost := ?_, rel := ?_, ev := ?_, moved := ?_, off := ?_, pend := ?_,
            legal := ?_, starts := ?_, idle := ?_, busy := by simp, sorted := r2,
            sub := fun f hf => hi.sub f (r3 f hf), left := ?_ }
          · intro j
            have hpl := hi.place_none j
            unfold CanSim.place at hpl ⊢
            rw [hb] at hpl
            simp only [reduceCtorEq, if_false, Option.some.injEq] at hpl ⊢
            by_cases hj : i = j
            · subst hj; simp only [if_true] at hpl ⊢; omega
            · simp only [if_neg hj] at hpl ⊢; omega
          · intro j
            by_cases hj : j = i
            · subst hj; simp [Job.initNext, hcost]
            · simp only [Function.update_of_ne hj]; exact hi.cost j
          · intro j
            by_cases hj : j = i
            · subst hj
              obtain ⟨q1, q2⟩ := hi.rel j
              simp only [Function.update_self, Job.initNext, q2]
              refine ⟨by omega, ?_⟩
              obtain ⟨k, hk⟩ := Nat.exists_eq_add_of_le q1
              rw [hk]
              have e1 : 1 + k - 1 = k := by omega
              have e2 : 1 + k + 1 - 1 = k + 1 := by omega
              rw [e1, e2, Nat.add_mul, Nat.one_mul]
            · simp only [Function.update_of_ne hj]; exact hi.rel j
          · intro q j hj
            have hji : j ≠ i := by rintro rfl; exact hne q hj
            simp only [Function.update_of_ne hji, lastDone_sent, if_neg (Ne.symm hji)]
            exact hi.ev q j hj
          · intro j hj
            simp only [Option.some.injEq] at hj
            subst hj
            simp [Job.initNext]
          · intro j _
            simp only [lastDone_sent]
            by_cases hj : j = i
            · subst hj; simp [Job.initNext]
            · simp only [Function.update_of_ne hj, if_neg (Ne.symm hj)]
              exact hi.off j (hother j hj)
          · intro j hj
            have hji : j ≠ i := by rintro rfl; exact hnp hj
            simp only [Function.update_of_ne hji]
            exact le_trans (hi.pend j hj) hnow
          · apply legalLog_snoc hi.legal
            refine ⟨t₀, htr, htime, ?_⟩
            intro f hf hbad
            exact hr (hhit.mpr ⟨f, hf, hbad⟩)
          · intro j k t hj
            simp only [List.mem_append, List.mem_singleton, reduceCtorEq, or_false] at hj
            exact hi.starts j k t hj
          · intro _
            refine ⟨by simp, ?_⟩
            intro t h1 h2
            simp only [usableFrom_sent] at h1 h2
            omega
          · intro f hf hm
            simp only [mark, transmitting_sent, usableFrom_sent] at hm
            exact hleft f hf (by omega)
    · rw [if_neg hc] at h
      simp only [Option.some.injEq] at h
      subst h
      refine ⟨?_, ?_, ?_, le_rfl⟩
      · refine { hi with
          place := ?_, cost := ?_, rel := ?_, ev := ?_, off := ?_, pend := ?_, idle := ?_,
          busy := ?_, moved := by simp }
        · intro j
          have := hi.place j
          unfold CanSim.place at this ⊢
          rw [hb] at this
          exact this
        · intro j
          by_cases hj : j = i
          · subst hj; simp [hcost]
          · simp only [Function.update_of_ne hj]; exact hi.cost j
        · intro j
          by_cases hj : j = i
          · subst hj; simpa using hi.rel j
          · simp only [Function.update_of_ne hj]; exact hi.rel j
        · intro q j hj
          have hji : j ≠ i := by rintro rfl; exact hne q hj
          simp only [Function.update_of_ne hji]
          exact hi.ev q j hj
        · intro j hj
          have hji : j ≠ i := by
            rintro rfl
            exact hj rfl
          simp only [Function.update_of_ne hji]
          exact hi.off j (hother j hji)
        · intro j hj
          have hji : j ≠ i := by rintro rfl; exact hnp hj
          simp only [Function.update_of_ne hji]
          exact le_trans (hi.pend j hj) hnow
        · intro hx
          simp at hx
        · intro j hj
          simp only [Option.some.injEq] at hj
          subst hj
          refine ⟨t₀, ?_, ?_, hdummy, ?_, ?_⟩
          · simpa using htr
          · simp only [Function.update_self]; omega
          · simpa using hlast
          · simpa using hrelle
      · intro j hj
        simp only [Option.some.injEq] at hj
        subst hj
        simp only [Function.update_self]
        omega
      · intro hx
        simp at hx

theorem advance_rest (hord : ord.Proper ts) (hP : ∀ i, 0 < (ts i).period) (boot fuel until_ : ℕ)
    (s s' : Sim n σ) (hs : Rest ts faults s)
    (hnow : s.now ≤ until_) (hmin : ∀ e ∈ s.events, until_ ≤ e.1)
    (h : advance ts hooks ord boot fuel until_ s = some s') : Rest ts faults s' := by
  unfold advance at h
  simp only [Option.map_eq_some_iff, Option.bind_eq_some_iff] at h
  obtain ⟨s₂, ⟨s₁, h1, h2⟩, rfl⟩ := h
  obtain ⟨a1, a2, a3, _⟩ := finish_inv boot fuel until_ s s₁ hs hnow hmin h1
  obtain ⟨b1, b2, b3, b4, b5, b6⟩ := fire_inv hord boot fuel s₁ s₂ a1 a2 h2
  apply schedule_rest hord hP s₂ b1
  · intro hb
    rw [b4] at hb
    rw [b5, b3]
    exact a3 hb
  · rw [b3]
    exact b6

theorem simulate_rest (hord : ord.Proper ts) (hP : ∀ i, 0 < (ts i).period) (boot end_ : ℕ) :
    ∀ (fuel : ℕ) (s s' : Sim n σ), Rest ts faults s →
    simulateUntil ts hooks ord boot end_ fuel s = some s' →
    Rest ts faults s' ∧ (end_ < s'.now ∨ hooks.aborted s'.stats = true ∨ s'.events = []) := by
  intro fuel
  induction fuel with
  | zero => intro s s' _ h; simp [simulateUntil] at h
  | succ fuel ih =>
    intro s s' hs h
    unfold simulateUntil at h
    split_ifs at h with hc
    · cases he : ord.event s.taken s.events with
      | none =>
        rw [he] at h
        simp only [Option.some.injEq] at h
        subst h
        exact ⟨hs, Or.inr (Or.inr (hord.event_none he))⟩
      | some e =>
        rw [he] at h
        simp only [Option.bind_eq_some_iff] at h
        obtain ⟨s₁, h1, h2⟩ := h
        obtain ⟨hmem, hmin⟩ := hord.event_some he
        exact ih s₁ s' (advance_rest hord hP boot fuel e.1 s s₁ hs (hs.future e hmem) hmin h1) h2
    · simp only [Option.some.injEq] at h
      subst h
      refine ⟨hs, ?_⟩
      by_cases h1 : s.now ≤ end_
      · right; left
        by_contra h2
        exact hc ⟨h1, by simpa using h2⟩
      · left; omega

theorem ready_rest (retr : List ℕ) (hr : retr.Pairwise (· ≤ ·)) (hf : Fin n → List ℤ) (st : σ) :
    Rest ts retr (ready ts retr hf st) := by
  have hcount : ∀ i : Fin n, ((List.finRange n).map fun i => ((0 : ℕ), Ev.release i)).countP
      (fun e => decide (e.2 = .release i)) = 1 := by
    intro i
    rw [List.countP_map]
    have : ((fun e : ℕ × Ev n => decide (e.2 = .release i)) ∘ fun i => (0, Ev.release i)) =
        fun j => j == i := by
      funext j
      simp [beq_eq_decide]
    rw [this]
    exact List.count_eq_one_of_mem (List.nodup_finRange n) (List.mem_finRange i)
  refine ⟨?_, by simp [ready, usableFrom], by simp [ready], by simp [ready]⟩
  refine {
    place := ?_, cost := ?_, rel := ?_, ev := ?_, moved := by simp, off := ?_, pend := ?_,
    legal := legalLog_nil _ _, starts := ?_, idle := ?_, busy := ?_, sorted := hr,
    sub := fun f hf => hf, left := fun f hf _ => hf }
  · intro i
    simp only [CanSim.place, ready, List.count_nil, reduceCtorEq, if_false]
    rw [hcount i]
  · intro i; simp [ready, Job.init]
  · intro i; simp [ready, Job.init]
  · intro r i hri
    simp [ready] at hri
    simp [ready, Job.init, lastDone, hri]
  · intro i _; simp [ready, Job.init, lastDone]
  · intro i hi; simp [ready] at hi
  · intro i k t hi; simp [ready] at hi
  · intro _
    refine ⟨by simp [ready, transmitting], ?_⟩
    intro t _ ht
    simp [ready] at ht
  · intro i hi; simp [ready] at hi

end Verif.CanSim
