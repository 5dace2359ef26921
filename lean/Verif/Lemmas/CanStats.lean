/-
Lemmas about the failure statistics of the CAN bus simulator.
-/
import Verif.Model.CanStats
import Verif.Lemmas.CanSimEnd
import Mathlib.Order.Interval.Finset.Nat
import Mathlib.Data.Finset.Card

namespace Verif.CanSim
open Verif.Spec
open scoped Classical in
/-- How many of the rounds 1 to `m` are completely transmitted by their deadlines. -/
noncomputable def onTime {n : ℕ} (ts : Fin n → Msg) (L : List (BusEvent n)) (i : Fin n) (m : ℕ) :
    ℕ :=
  ((Finset.Icc 1 m).filter fun k => ∃ t, BusEvent.sent i k t ∈ L ∧
    t ≤ (k - 1) * (ts i).period + (ts i).deadline).card

variable {n : ℕ} {ts : Fin n → Msg} {i : Fin n}

/-- The deadline of job `k`. -/
def dl (ts : Fin n → Msg) (i : Fin n) (k : ℕ) : ℕ := (k - 1) * (ts i).period + (ts i).deadline

theorem dl_lt (hP : 0 < (ts i).period) {a b : ℕ} (ha : 1 ≤ a) (h : a < b) : dl ts i a < dl ts i b := by
  unfold dl
  have : (a - 1) * (ts i).period < (b - 1) * (ts i).period :=
    Nat.mul_lt_mul_of_pos_right (by omega) hP
  omega

theorem onTime_congr {L L' : List (BusEvent n)} {m : ℕ}
    (h : ∀ k, 1 ≤ k → k ≤ m → ((∃ t, BusEvent.sent i k t ∈ L' ∧ t ≤ dl ts i k) ↔
      ∃ t, BusEvent.sent i k t ∈ L ∧ t ≤ dl ts i k)) : onTime ts L' i m = onTime ts L i m := by
  classical
  unfold onTime
  congr 1
  apply Finset.filter_congr
  intro k hk
  rw [Finset.mem_Icc] at hk
  exact h k hk.1 hk.2

theorem onTime_succ (L : List (BusEvent n)) (m : ℕ) [Decidable (∃ t, BusEvent.sent i (m + 1) t ∈ L ∧ t ≤ dl ts i (m + 1))] :
    onTime ts L i (m + 1) = onTime ts L i m +
      if (∃ t, BusEvent.sent i (m + 1) t ∈ L ∧ t ≤ dl ts i (m + 1)) then 1 else 0 := by
  unfold onTime
  have : Finset.Icc 1 (m + 1) = insert (m + 1) (Finset.Icc 1 m) := by
    ext k; simp only [Finset.mem_Icc, Finset.mem_insert]; omega
  rw [this, Finset.filter_insert]
  by_cases h : ∃ t, BusEvent.sent i (m + 1) t ∈ L ∧ t ≤ dl ts i (m + 1)
  · rw [if_pos h, if_pos (show ∃ t, BusEvent.sent i (m + 1) t ∈ L ∧
      t ≤ (m + 1 - 1) * (ts i).period + (ts i).deadline from h), Finset.card_insert_of_notMem]
    simp
  · rw [if_neg h, if_neg (show ¬ ∃ t, BusEvent.sent i (m + 1) t ∈ L ∧
      t ≤ (m + 1 - 1) * (ts i).period + (ts i).deadline from h)]
    rfl

/-- The rounds `a + 1` to `b`, each with one message that is not faulty. -/
def good (a b : ℕ) : List Round := (List.range' (a + 1) (b - a)).map fun k => ⟨k, 1, 0⟩

theorem good_cons {a b : ℕ} (h : a < b) : good a b = ⟨a + 1, 1, 0⟩ :: good (a + 1) b := by
  unfold good
  have : b - a = (b - (a + 1)) + 1 := by omega
  rw [this, List.range'_succ]
  rfl

theorem good_nil {a b : ℕ} (h : b ≤ a) : good a b = [] := by
  unfold good
  have : b - a = 0 := by omega
  rw [this]
  rfl

theorem good_snoc {a b : ℕ} (h : a ≤ b) : good a (b + 1) = good a b ++ [⟨b + 1, 1, 0⟩] := by
  unfold good
  have : b + 1 - a = (b - a) + 1 := by omega
  rw [this, List.range'_concat, List.map_append]
  have e : a + 1 + (b - a) = b + 1 := by omega
  simp [e]

theorem good_last {a b : ℕ} (h : a < b) : (good a b).getLast? = some ⟨b, 1, 0⟩ := by
  obtain ⟨c, rfl⟩ : ∃ c, b = c + 1 := ⟨b - 1, by omega⟩
  rw [good_snoc (by omega)]
  simp

theorem mem_good {a b : ℕ} {r : Round} (h : r ∈ good a b) : a < r.seqno ∧ r.seqno ≤ b := by
  unfold good at h
  simp only [List.mem_map, List.mem_range'_1] at h
  obtain ⟨k, hk, rfl⟩ := h
  simp only
  omega

theorem addRound_good {a b : ℕ} (h : a ≤ b) :
    addRound (b + 1) (good a b) = good a b ++ [⟨b + 1, 0, 0⟩] := by
  unfold addRound
  rcases Nat.lt_or_ge a b with h1 | h1
  · rw [good_last h1]
    simp
  · rw [good_nil h1]
    simp

theorem find_snoc (l : List Round) (r : Round) (h : ∀ x ∈ l, x.seqno ≠ r.seqno) :
    findRound r.seqno (l ++ [r]) = some r := by
  unfold findRound
  rw [List.find?_append]
  have : l.find? (fun x => decide (x.seqno = r.seqno)) = none := by
    rw [List.find?_eq_none]
    intro x hx
    simp [h x hx]
  rw [this]
  simp

theorem countMsg_snoc (l : List Round) (r : Round) (bad : Bool) (h : ∀ x ∈ l, x.seqno ≠ r.seqno) :
    countMsg r.seqno bad (l ++ [r]) =
      l ++ [if bad then { r with faulty := r.faulty + 1 } else { r with ok := r.ok + 1 }] := by
  induction l with
  | nil => simp [countMsg]
  | cons a l ih =>
    rw [List.cons_append, countMsg, if_neg (h a List.mem_cons_self),
      ih (fun x hx => h x (List.mem_cons_of_mem _ hx))]
    rfl

/-! ### Statistics of one message without host faults whose jobs are never skipped -/

/-- The statistics of message `i`, if the deadlines of its jobs up to `K` have been queued. -/
structure Track (ts : Fin n → Msg) (i : Fin n) (K : ℕ) (L : List (BusEvent n))
    (events : List (ℕ × Ev n)) (info : Info) (now : ℕ) : Prop where
  low : lastDone L i ≤ K
  high : K ≤ lastDone L i + 1
  ev : ∀ t k, events.count (t, .deadline i k) =
    if t = dl ts i k ∧ info.latest < k ∧ k ≤ K then 1 else 0
  latest : info.latest ≤ K
  rounds : info.rounds = good info.latest (lastDone L i)
  fired : ∀ k, 1 ≤ k → k ≤ info.latest → dl ts i k ≤ now
  total : info.ok + info.faulty = info.latest
  ok : info.ok = onTime ts L i info.latest
  sent : ∀ k t, BusEvent.sent i k t ∈ L → k ≤ lastDone L i ∧ (info.latest < k → t ≤ dl ts i k)
  all : ∀ k, 1 ≤ k → k ≤ lastDone L i → ∃ t, BusEvent.sent i k t ∈ L

theorem Track.frame {K : ℕ} {L L' : List (BusEvent n)} {events events' : List (ℕ × Ev n)}
    {info : Info} {now now' : ℕ} (h : Track ts i K L events info now)
    (hl : lastDone L' i = lastDone L i) (hs : ∀ k t, BusEvent.sent i k t ∈ L' ↔ BusEvent.sent i k t ∈ L)
    (he : ∀ t k, events'.count (t, .deadline i k) = events.count (t, .deadline i k))
    (hn : now ≤ now') : Track ts i K L' events' info now' := by
  refine ⟨by rw [hl]; exact h.low, by rw [hl]; exact h.high, fun t k => by rw [he]; exact h.ev t k,
    h.latest, by rw [hl]; exact h.rounds, ?_, h.total, ?_, ?_, ?_⟩
  · intro k h1 h2
    exact (h.fired k h1 h2).trans hn
  · rw [h.ok]
    symm
    apply onTime_congr
    intro k _ _
    simp only [hs]
  · intro k t hk
    rw [hs] at hk
    rw [hl]
    exact h.sent k t hk
  · intro k h1 h2
    rw [hl] at h2
    obtain ⟨t, ht⟩ := h.all k h1 h2
    exact ⟨t, (hs k t).mpr ht⟩

/-- The next job becomes ready. -/
theorem Track.ready {L : List (BusEvent n)} {events : List (ℕ × Ev n)} {info : Info} {now : ℕ}
    (h : Track ts i (lastDone L i) L events info now) :
    Track ts i (lastDone L i + 1) L
      (events ++ [(dl ts i (lastDone L i + 1), .deadline i (lastDone L i + 1))]) info now := by
  have hl := h.latest
  refine ⟨by omega, le_rfl, ?_, by omega, h.rounds, h.fired, h.total, h.ok, h.sent, h.all⟩
  intro t k
  rw [List.count_append, h.ev t k]
  by_cases hk : k = lastDone L i + 1
  · subst hk
    rw [if_neg (by omega)]
    by_cases ht : t = dl ts i (lastDone L i + 1)
    · rw [if_pos ⟨ht, by omega, le_rfl⟩, ht]
      simp
    · rw [if_neg (fun hh => ht hh.1)]
      simp [Ne.symm ht]
  · have : List.count (t, Ev.deadline i k)
        [(dl ts i (lastDone L i + 1), Ev.deadline i (lastDone L i + 1))] = 0 := by
      rw [List.count_eq_zero]
      simp only [List.mem_singleton, Prod.mk.injEq, Ev.deadline.injEq]
      rintro ⟨_, _, h3⟩
      exact hk h3
    rw [this]
    by_cases h1 : t = dl ts i k ∧ info.latest < k ∧ k ≤ lastDone L i
    · rw [if_pos h1, if_pos ⟨h1.1, h1.2.1, by omega⟩]
    · rw [if_neg h1, if_neg (by
        rintro ⟨a, b, c⟩
        exact h1 ⟨a, b, by omega⟩)]

/-- Deadlines expire in the order of the rounds. -/
theorem Track.next (hP : 0 < (ts i).period) {K : ℕ} {L : List (BusEvent n)}
    {events : List (ℕ × Ev n)} {info : Info} {now : ℕ} (h : Track ts i K L events info now)
    {t k : ℕ} (hm : (t, Ev.deadline i k) ∈ events) (hmin : ∀ e ∈ events, t ≤ e.1) :
    t = dl ts i k ∧ k = info.latest + 1 ∧ k ≤ K := by
  have hc := List.count_pos_iff.mpr hm
  rw [h.ev t k] at hc
  have hcond : t = dl ts i k ∧ info.latest < k ∧ k ≤ K := by
    by_contra hh
    rw [if_neg hh] at hc
    omega
  obtain ⟨rfl, h1, h2⟩ := hcond
  refine ⟨rfl, ?_, h2⟩
  by_contra hne
  have h3 : 0 < events.count (dl ts i (info.latest + 1), Ev.deadline i (info.latest + 1)) := by
    rw [h.ev, if_pos ⟨rfl, by omega, by omega⟩]
    omega
  have h4 := hmin _ (List.count_pos_iff.mp h3)
  have h5 := dl_lt (ts := ts) hP (a := info.latest + 1) (b := k) (by omega) (by omega)
  simp only at h4
  omega

/-- A deadline expires. -/
theorem Track.expire (hP : 0 < (ts i).period) {K : ℕ} {L : List (BusEvent n)}
    {events : List (ℕ × Ev n)} {info : Info} {now : ℕ} (h : Track ts i K L events info now)
    (coin : Bool) {t k : ℕ} (hm : (t, Ev.deadline i k) ∈ events)
    (hmin : ∀ e ∈ events, t ≤ e.1) (hnow : t ≤ now) :
    Track ts i K L (events.erase (t, .deadline i k)) (expiredSync coin k info).1 now := by
  obtain ⟨rfl, hk, h2⟩ := h.next hP hm hmin
  have h1 : info.latest < k := by omega
  have hlow := h.low
  have hhigh := h.high
  have hev : ∀ t' k', (events.erase (dl ts i k, .deadline i k)).count (t', .deadline i k') =
      if t' = dl ts i k' ∧ k < k' ∧ k' ≤ K then 1 else 0 := by
    intro t' k'
    rw [List.count_erase, h.ev t' k']
    by_cases hk' : k' = k
    · subst hk'
      have h0 : (if t' = dl ts i k' ∧ k' < k' ∧ k' ≤ K then 1 else 0) = 0 := if_neg (by omega)
      rw [h0]
      by_cases ht' : t' = dl ts i k'
      · subst ht'
        have h3 : (if dl ts i k' = dl ts i k' ∧ info.latest < k' ∧ k' ≤ K then 1 else 0) = 1 :=
          if_pos ⟨rfl, h1, h2⟩
        rw [h3]
        simp
      · have h3 : (if t' = dl ts i k' ∧ info.latest < k' ∧ k' ≤ K then 1 else 0) = 0 :=
          if_neg (fun hh => ht' hh.1)
        rw [h3]
        simp
    · have hne : ((dl ts i k, Ev.deadline i k) == (t', Ev.deadline i k')) = false := by
        rw [beq_eq_false_iff_ne]
        intro hh
        simp only [Prod.mk.injEq, Ev.deadline.injEq] at hh
        exact hk' hh.2.2.symm
      rw [hne]
      simp only [Bool.false_eq_true, if_false, Nat.sub_zero]
      by_cases hh : t' = dl ts i k' ∧ info.latest < k' ∧ k' ≤ K
      · rw [if_pos hh, if_pos ⟨hh.1, by omega, hh.2.2⟩]
      · rw [if_neg hh, if_neg (by
          rintro ⟨a, b, c⟩
          exact hh ⟨a, by omega, c⟩)]
  unfold expiredSync
  rw [if_neg (by omega)]
  have hfired : ∀ k', 1 ≤ k' → k' ≤ k → dl ts i k' ≤ now := by
    intro k' h3 h4
    rcases Nat.lt_or_ge info.latest k' with h5 | h5
    · have : k' = k := by omega
      rw [this]
      exact hnow
    · exact h.fired k' h3 h5
  have hsent : ∀ k' t', BusEvent.sent i k' t' ∈ L → k' ≤ lastDone L i ∧ (k < k' → t' ≤ dl ts i k') := by
    intro k' t' h3
    obtain ⟨h4, h5⟩ := h.sent k' t' h3
    exact ⟨h4, fun h6 => h5 (by omega)⟩
  have htot := h.total
  have hok := h.ok
  rw [h.rounds]
  by_cases hd : info.latest < lastDone L i
  · rw [good_cons hd]
    have hf : findRound k (⟨info.latest + 1, 1, 0⟩ :: good (info.latest + 1) (lastDone L i)) =
        some ⟨info.latest + 1, 1, 0⟩ := by
      simp [findRound, hk]
    have hE : eraseRound k (⟨info.latest + 1, 1, 0⟩ :: good (info.latest + 1) (lastDone L i)) =
        good k (lastDone L i) := by
      simp [eraseRound, hk]
    rw [hf, hE]
    simp only [gt_iff_lt, Nat.lt_one_iff, if_true]
    refine ⟨hlow, hhigh, hev, h2, rfl, hfired, by simp only; omega, ?_, hsent, h.all⟩
    simp only
    obtain ⟨t', ht'⟩ := h.all k (by omega) (by omega)
    have hd' := (h.sent k t' ht').2 h1
    rw [hk] at ht' hd' ⊢
    classical
    rw [onTime_succ, if_pos ⟨t', ht', hd'⟩, ← hok]
  · rw [good_nil (by omega)]
    simp only [findRound, List.find?_nil]
    refine ⟨hlow, hhigh, hev, h2, ?_, hfired, by simp only; omega, ?_, hsent, h.all⟩
    · simp only
      rw [good_nil (by omega)]
    · simp only
      rw [hk]
      classical
      rw [onTime_succ, if_neg, ← hok]
      · rfl
      · rintro ⟨t', h3, _⟩
        have := (h.sent _ _ h3).1
        omega

/-- A job is transmitted. -/
theorem Track.send {L : List (BusEvent n)}
    {events : List (ℕ × Ev n)} {info : Info} {now u : ℕ}
    (h : Track ts i (lastDone L i + 1) L events info now) (hcrit : (ts i).critical = false)
    (hu : now < u) (hmin : ∀ e ∈ events, u ≤ e.1) (j : Job) (hj : j.seqno = lastDone L i + 1) :
    Track ts i (lastDone L i + 1) (L ++ [.sent i (lastDone L i + 1) u]) events
      (completedSync (ts i) j u info).2 u := by
  have hlast : lastDone (L ++ [.sent i (lastDone L i + 1) u]) i = lastDone L i + 1 := by simp
  have hlat := h.latest
  have hmem : ∀ k t, BusEvent.sent i k t ∈ L ++ [BusEvent.sent i (lastDone L i + 1) u] ↔
      BusEvent.sent i k t ∈ L ∨ (k = lastDone L i + 1 ∧ t = u) := by
    intro k t
    simp
  have hall : ∀ k, 1 ≤ k → k ≤ lastDone (L ++ [.sent i (lastDone L i + 1) u]) i →
      ∃ t, BusEvent.sent i k t ∈ L ++ [BusEvent.sent i (lastDone L i + 1) u] := by
    intro k h1 h2
    rw [hlast] at h2
    rcases Nat.lt_or_ge (lastDone L i) k with h3 | h3
    · exact ⟨u, (hmem _ _).mpr (Or.inr ⟨by omega, rfl⟩)⟩
    · obtain ⟨t, ht⟩ := h.all k h1 h3
      exact ⟨t, (hmem _ _).mpr (Or.inl ht)⟩
  unfold completedSync
  by_cases hle : j.seqno ≤ info.latest
  · rw [if_pos hle]
    simp only
    have hlate := h.fired (lastDone L i + 1) (by omega) (by omega)
    refine ⟨by rw [hlast], by rw [hlast]; omega, h.ev, hlat, ?_, ?_, h.total, ?_, ?_, hall⟩
    · rw [hlast, h.rounds, good_nil (by omega), good_nil (by omega)]
    · intro k h1 h2
      have := h.fired k h1 h2
      omega
    · rw [h.ok]
      symm
      apply onTime_congr
      intro k _ _
      constructor
      · rintro ⟨t, h1, h2⟩
        rcases (hmem _ _).mp h1 with h1 | ⟨rfl, rfl⟩
        · exact ⟨t, h1, h2⟩
        · omega
      · rintro ⟨t, h1, h2⟩
        exact ⟨t, (hmem _ _).mpr (Or.inl h1), h2⟩
    · intro k t hk
      rw [hlast]
      rcases (hmem _ _).mp hk with hk | ⟨rfl, rfl⟩
      · obtain ⟨h1, h2⟩ := h.sent k t hk
        exact ⟨by omega, h2⟩
      · exact ⟨le_rfl, fun h1 => by omega⟩
  · rw [if_neg hle]
    have hlt : info.latest ≤ lastDone L i := by omega
    have hdl : u ≤ dl ts i (lastDone L i + 1) := by
      have h1 : 0 < events.count (dl ts i (lastDone L i + 1), Ev.deadline i (lastDone L i + 1)) := by
        rw [h.ev, if_pos ⟨rfl, by omega, le_rfl⟩]
        omega
      exact hmin _ (List.count_pos_iff.mp h1)
    have hne : ∀ x ∈ good info.latest (lastDone L i), x.seqno ≠ lastDone L i + 1 := by
      intro x hx
      have := mem_good hx
      omega
    rw [h.rounds, hj, addRound_good hlt]
    have hf := find_snoc (good info.latest (lastDone L i)) ⟨lastDone L i + 1, 0, 0⟩ hne
    have hcm := countMsg_snoc (good info.latest (lastDone L i)) ⟨lastDone L i + 1, 0, 0⟩ false hne
    simp only at hf hcm
    simp only [hf, hcrit, Bool.false_eq_true, if_false, hcm, Nat.zero_add]
    refine ⟨by rw [hlast], by rw [hlast]; omega, h.ev, hlat, ?_, ?_, h.total, ?_, ?_, hall⟩
    · rw [hlast, good_snoc hlt]
    · intro k h1 h2
      have := h.fired k h1 h2
      omega
    · simp only
      rw [h.ok]
      symm
      apply onTime_congr
      intro k _ hk
      constructor
      · rintro ⟨t, h1, h2⟩
        rcases (hmem _ _).mp h1 with h1 | ⟨rfl, rfl⟩
        · exact ⟨t, h1, h2⟩
        · omega
      · rintro ⟨t, h1, h2⟩
        exact ⟨t, (hmem _ _).mpr (Or.inl h1), h2⟩
    · intro k t hk
      rw [hlast]
      rcases (hmem _ _).mp hk with hk | ⟨rfl, rfl⟩
      · obtain ⟨h1, h2⟩ := h.sent k t hk
        exact ⟨by omega, h2⟩
      · exact ⟨le_rfl, fun _ => hdl⟩

/-- The statistics of message `i` for the asynchronous protocol. -/
structure ATrack (ts : Fin n → Msg) (i : Fin n) (L : List (BusEvent n)) (info a : Info) : Prop where
  rounds : a.rounds = []
  latest : a.latest = max info.latest (lastDone L i)
  total : a.ok + a.faulty = a.latest
  ok : a.ok = onTime ts L i a.latest

theorem ATrack.frame {L L' : List (BusEvent n)} {info a : Info} (h : ATrack ts i L info a)
    (hl : lastDone L' i = lastDone L i)
    (hs : ∀ k t, BusEvent.sent i k t ∈ L' ↔ BusEvent.sent i k t ∈ L) : ATrack ts i L' info a := by
  refine ⟨h.rounds, by rw [hl]; exact h.latest, h.total, ?_⟩
  rw [h.ok]
  symm
  apply onTime_congr
  intro k _ _
  simp only [hs]

theorem expiredSync_latest (coin : Bool) {k : ℕ} {info : Info} (h : info.latest < k) :
    (expiredSync coin k info).1.latest = k := by
  unfold expiredSync
  rw [if_neg (by omega)]
  split
  · simp only
    split_ifs <;> rfl
  · rfl

theorem completedSync_latest (m : Msg) (j : Job) (u : ℕ) (info : Info) :
    (completedSync m j u info).2.latest = info.latest := by
  unfold completedSync
  split_ifs
  · rfl
  all_goals
    simp only
    split <;> rfl

theorem ATrack.expire (hP : 0 < (ts i).period) {K : ℕ} {L : List (BusEvent n)}
    {events : List (ℕ × Ev n)} {info a : Info} {now : ℕ} (ha : ATrack ts i L info a)
    (h : Track ts i K L events info now)
    (coin : Bool) {t k : ℕ} (hm : (t, Ev.deadline i k) ∈ events) (hmin : ∀ e ∈ events, t ≤ e.1) :
    ATrack ts i L (expiredSync coin k info).1 (expiredAsync k a) := by
  obtain ⟨_, hk, _⟩ := h.next hP hm hmin
  have hlat := expiredSync_latest coin (k := k) (info := info) (by omega)
  have h1 := ha.latest
  have htot := ha.total
  unfold expiredAsync
  by_cases hle : k ≤ a.latest
  · rw [if_pos hle]
    refine ⟨ha.rounds, ?_, ha.total, ha.ok⟩
    rw [hlat]
    omega
  · rw [if_neg hle]
    refine ⟨ha.rounds, ?_, by simp only; omega, ?_⟩
    · simp only
      rw [hlat]
      omega
    · simp only
      have hk' : k = a.latest + 1 := by omega
      rw [hk']
      classical
      rw [onTime_succ, if_neg, ← ha.ok]
      · rfl
      · rintro ⟨t', h3, _⟩
        have := (h.sent _ _ h3).1
        omega

theorem ATrack.send {L : List (BusEvent n)}
    {events : List (ℕ × Ev n)} {info a : Info} {now u : ℕ}
    (ha : ATrack ts i L info a) (h : Track ts i (lastDone L i + 1) L events info now)
    (hcrit : (ts i).critical = false)
    (hu : now < u) (hmin : ∀ e ∈ events, u ≤ e.1) (j : Job) (hj : j.seqno = lastDone L i + 1)
    (j' : Job) (hj' : j'.seqno = lastDone L i + 1) (rprime : ℕ) :
    ATrack ts i (L ++ [.sent i (lastDone L i + 1) u])
      (completedSync (ts i) j u info).2 (completedAsync rprime (ts i) j' u a).2 := by
  have hlast : lastDone (L ++ [.sent i (lastDone L i + 1) u]) i = lastDone L i + 1 := by simp
  have hlat := h.latest
  have h1 := ha.latest
  have htot := ha.total
  have hsync := completedSync_latest (ts i) j u info
  have hmem : ∀ k t, BusEvent.sent i k t ∈ L ++ [BusEvent.sent i (lastDone L i + 1) u] ↔
      BusEvent.sent i k t ∈ L ∨ (k = lastDone L i + 1 ∧ t = u) := by
    intro k t
    simp
  unfold completedAsync
  by_cases hle : j'.seqno ≤ a.latest
  · rw [if_pos hle]
    simp only
    have hlate := h.fired (lastDone L i + 1) (by omega) (by omega)
    refine ⟨ha.rounds, by rw [hlast, hsync]; omega, ha.total, ?_⟩
    rw [ha.ok]
    symm
    apply onTime_congr
    intro k _ _
    constructor
    · rintro ⟨t, h1, h2⟩
      rcases (hmem _ _).mp h1 with h1 | ⟨rfl, rfl⟩
      · exact ⟨t, h1, h2⟩
      · omega
    · rintro ⟨t, h1, h2⟩
      exact ⟨t, (hmem _ _).mpr (Or.inl h1), h2⟩
  · rw [if_neg hle]
    have hdl : u ≤ dl ts i (lastDone L i + 1) := by
      have h1 : 0 < events.count (dl ts i (lastDone L i + 1), Ev.deadline i (lastDone L i + 1)) := by
        rw [h.ev, if_pos ⟨rfl, by omega, le_rfl⟩]
        omega
      exact hmin _ (List.count_pos_iff.mp h1)
    have ha0 : a.latest = lastDone L i := by omega
    simp only [ha.rounds, addRound, List.getLast?_nil, List.nil_append, findRound, List.find?_cons,
      decide_true, hcrit, Bool.false_eq_true, if_false, countMsg, if_true, eraseRound, Nat.zero_add,
      ge_iff_le, le_refl]
    refine ⟨rfl, by simp only; rw [hlast, hsync]; omega, by simp only; omega, ?_⟩
    simp only
    rw [hj']
    classical
    rw [onTime_succ, if_pos ⟨u, (hmem _ _).mpr (Or.inr ⟨rfl, rfl⟩), hdl⟩, ha.ok, ha0]
    congr 1
    symm
    apply onTime_congr
    intro k _ hk
    constructor
    · rintro ⟨t, h1, h2⟩
      rcases (hmem _ _).mp h1 with h1 | ⟨rfl, rfl⟩
      · exact ⟨t, h1, h2⟩
      · omega
    · rintro ⟨t, h1, h2⟩
      exact ⟨t, (hmem _ _).mpr (Or.inl h1), h2⟩

/-! ### The simulation -/

variable {faults : List ℕ} {ord : Order n} {rprime : ℕ} {coin : ℕ → Bool}

/-- Releases of message `i` in the queue. -/
def releases (s : Sim n Stats) (i : Fin n) : ℕ :=
  s.events.countP (fun e => decide (e.2 = .release i))

structure Tracked (ts : Fin n → Msg) (i : Fin n) (s : Sim n Stats) : Prop where
  seq : (s.job i).seqno = lastDone s.log i + 1
  track : Track ts i (lastDone s.log i + 1 - releases s i) s.log s.events
    (s.stats.sync (ts i).taskid) s.now
  async : ATrack ts i s.log (s.stats.sync (ts i).taskid) (s.stats.async (ts i).taskid)

/-- Nothing changes for message `i`. -/
structure Off (ts : Fin n → Msg) (i : Fin n) (s s' : Sim n Stats) : Prop where
  job : (s'.job i).seqno = (s.job i).seqno
  done : lastDone s'.log i = lastDone s.log i
  sent : ∀ k t, BusEvent.sent i k t ∈ s'.log ↔ BusEvent.sent i k t ∈ s.log
  ev : ∀ t k, s'.events.count (t, .deadline i k) = s.events.count (t, .deadline i k)
  rel : releases s' i = releases s i
  stats : (s'.stats.sync (ts i).taskid, s'.stats.async (ts i).taskid) =
    (s.stats.sync (ts i).taskid, s.stats.async (ts i).taskid)
  now : s.now ≤ s'.now

theorem Off.trans {s₁ s₂ s₃ : Sim n Stats} (h : Off ts i s₁ s₂) (h' : Off ts i s₂ s₃) :
    Off ts i s₁ s₃ :=
  ⟨h'.job.trans h.job, h'.done.trans h.done, fun k t => (h'.sent k t).trans (h.sent k t),
    fun t k => (h'.ev t k).trans (h.ev t k), h'.rel.trans h.rel, h'.stats.trans h.stats,
    h.now.trans h'.now⟩

theorem Tracked.off {s s' : Sim n Stats} (h : Tracked ts i s) (ho : Off ts i s s') :
    Tracked ts i s' := by
  have hst := ho.stats
  simp only [Prod.mk.injEq] at hst
  refine ⟨by rw [ho.job, ho.done]; exact h.seq, ?_, ?_⟩
  · rw [hst.1, ho.rel, ho.done]
    exact h.track.frame ho.done ho.sent ho.ev ho.now
  · rw [hst.1, hst.2]
    exact h.async.frame ho.done ho.sent

theorem count_append_other (l : List (ℕ × Ev n)) (e : ℕ × Ev n) (t k : ℕ)
    (he : e ≠ (t, .deadline i k)) :
    (l ++ [e]).count (t, .deadline i k) = l.count (t, .deadline i k) := by
  rw [List.count_append]
  have : List.count (t, Ev.deadline i k) [e] = 0 := by
    rw [List.count_eq_zero]
    simp only [List.mem_singleton]
    exact fun h => he h.symm
  omega

theorem addReady_off (boot : ℕ) (j : Fin n) (hj : j ≠ i) : ∀ (fuel : ℕ) (s s' : Sim n Stats),
    addReady ts boot fuel s j = some s' → Off ts i s s' := by
  intro fuel
  induction fuel with
  | zero => intro s s' h; simp [addReady] at h
  | succ fuel ih =>
    intro s s' h
    unfold addReady at h
    simp only at h
    have hd : ∀ (l : List (ℕ × Ev n)) (a b t k : ℕ), (l ++ [(a, Ev.deadline j b)]).count
        (t, Ev.deadline i k) = l.count (t, Ev.deadline i k) := by
      intro l a b t k
      apply count_append_other
      simp [hj]
    have hr : ∀ (l : List (ℕ × Ev n)) (a t k : ℕ), (l ++ [(a, Ev.release j)]).count
        (t, Ev.deadline i k) = l.count (t, Ev.deadline i k) := by
      intro l a t k
      apply count_append_other
      simp
    have hc1 : ∀ (l : List (ℕ × Ev n)) (a b : ℕ), (l ++ [(a, Ev.deadline j b)]).countP
        (fun e => decide (e.2 = .release i)) = l.countP (fun e => decide (e.2 = .release i)) := by
      intro l a b
      rw [countP_append_release]
      simp
    have hc2 : ∀ (l : List (ℕ × Ev n)) (a : ℕ), (l ++ [(a, Ev.release j)]).countP
        (fun e => decide (e.2 = .release i)) = l.countP (fun e => decide (e.2 = .release i)) := by
      intro l a
      rw [countP_append_release]
      simp [hj]
    split_ifs at h
    · simp only [Option.some.injEq] at h
      subst h
      refine ⟨?_, ?_, ?_, ?_, ?_, rfl, le_rfl⟩
      · simp [Sim.setJob, Function.update_of_ne (Ne.symm hj)]
      · simp [Sim.setJob, hj]
      · simp [Sim.setJob]
      · intro t k; simp only [Sim.setJob, hd, hr]
      · simp only [releases, Sim.setJob, hc1, hc2]
    · have h1 := ih _ s' h
      refine Off.trans ?_ h1
      refine ⟨?_, ?_, ?_, ?_, ?_, rfl, le_rfl⟩
      · simp [Sim.setJob, Function.update_of_ne (Ne.symm hj)]
      · simp [Sim.setJob, hj]
      · simp [Sim.setJob]
      · intro t k; simp only [Sim.setJob, hd]
      · simp only [releases, Sim.setJob, hc1]
    · simp only [Option.some.injEq] at h
      subst h
      refine ⟨?_, rfl, fun _ _ => Iff.rfl, ?_, ?_, rfl, le_rfl⟩
      · simp [Sim.setJob, Function.update_of_ne (Ne.symm hj)]
      · intro t k; simp only [Sim.setJob, hd]
      · simp only [releases, Sim.setJob, hc1]
    · simp only [Option.some.injEq] at h
      subst h
      exact ⟨rfl, rfl, fun _ _ => Iff.rfl, fun t k => hd _ _ _ _ _, hc1 _ _ _, rfl, le_rfl⟩

/-- Message `i` becomes ready. -/
theorem addReady_tracked (hcrit : (ts i).critical = false) (boot fuel : ℕ) (s s' : Sim n Stats)
    (h0 : releases s i = 0) (hseq : (s.job i).seqno = lastDone s.log i + 1)
    (hrel : (s.job i).release = lastDone s.log i * (ts i).period)
    (ht : Track ts i (lastDone s.log i) s.log s.events (s.stats.sync (ts i).taskid) s.now)
    (hat : ATrack ts i s.log (s.stats.sync (ts i).taskid) (s.stats.async (ts i).taskid))
    (h : addReady ts boot fuel s i = some s') : Tracked ts i s' := by
  cases fuel with
  | zero => simp [addReady] at h
  | succ fuel =>
    unfold addReady at h
    simp only [hcrit, Bool.false_eq_true, if_false, Option.some.injEq] at h
    subst h
    refine ⟨hseq, ?_, hat⟩
    have hrel' : releases ({ s with
        events := s.events ++ [((s.job i).release + (ts i).deadline, Ev.deadline i (s.job i).seqno)]
        pending := s.pending ++ [i] } : Sim n Stats) i = 0 := by
      unfold releases at h0 ⊢
      simp only [countP_append_release, h0]
      simp
    simp only at hrel' ⊢
    rw [hrel', Nat.sub_zero]
    have h1 := ht.ready
    rw [hseq]
    have : (s.job i).release + (ts i).deadline = dl ts i (lastDone s.log i + 1) := by
      unfold dl
      rw [hrel, Nat.add_sub_cancel]
    rw [this]
    exact h1

theorem fire_tracked (hord : ord.Proper ts) (hP : 0 < (ts i).period)
    (hcrit : (ts i).critical = false)
    (huniq : ∀ j, (ts j).taskid = (ts i).taskid → j = i) (boot : ℕ) :
    ∀ (fuel : ℕ) (s s' : Sim n Stats), Inv ts faults none s → Later ts s → Tracked ts i s →
    fire ts (statsHooks ts rprime coin) ord boot fuel s = some s' → Tracked ts i s' := by
  intro fuel
  induction fuel with
  | zero => intro s s' _ _ _ h; simp [fire] at h
  | succ fuel ih =>
    intro s s' hs hl ht h
    unfold fire at h
    cases he : ord.event s.taken s.events with
    | none =>
      rw [he] at h
      simp only [Option.some.injEq] at h
      subst h
      exact ht
    | some e =>
      rw [he] at h
      simp only at h
      obtain ⟨hmem, hmin⟩ := hord.event_some he
      by_cases hgt : e.1 > s.now
      · rw [if_pos hgt] at h
        simp only [Option.some.injEq] at h
        subst h
        exact ht
      · rw [if_neg hgt] at h
        have hle : e.1 ≤ s.now := by omega
        have hperm := List.perm_cons_erase hmem
        have hcount : ∀ t k, e ≠ (t, Ev.deadline i k) →
            (s.events.erase e).count (t, .deadline i k) = s.events.count (t, .deadline i k) := by
          intro t k hne
          rw [List.count_erase_of_ne (Ne.symm hne)]
        have hcountP : e.2 ≠ .release i → (s.events.erase e).countP
            (fun e => decide (e.2 = .release i)) =
            s.events.countP (fun e => decide (e.2 = .release i)) := by
          intro hne
          have := hperm.countP_eq (fun e => decide (e.2 = .release i))
          rw [List.countP_cons] at this
          simp only [decide_eq_true_eq, if_neg hne] at this
          omega
        cases hev : e.2 with
        | dummy =>
          rw [hev] at h
          simp only at h
          have h1 := (hs.pop hl e hmem hle none (by simp [hev])).stats s.stats (s.taken + 1)
          have h2 : Tracked ts i { s with events := s.events.erase e, taken := s.taken + 1 } := by
            refine ht.off ⟨rfl, rfl, fun _ _ => Iff.rfl, ?_, ?_, rfl, le_rfl⟩
            · intro t k
              apply hcount
              intro hh; rw [hh] at hev; simp at hev
            · exact hcountP (by rw [hev]; simp)
          have h3 := ih _ s' h1 hl h2 h
          exact h3
        | deadline j k =>
          rw [hev] at h
          simp only at h
          have h1 := (hs.pop hl e hmem hle none (by simp [hev])).stats
            ((statsHooks ts rprime coin).expired j k s.now s.stats) (s.taken + 1)
          by_cases hj : j = i
          · subst hj
            have hE : e = (e.1, Ev.deadline j k) := by rw [← hev]
            have h2 : Tracked ts j { s with
                events := s.events.erase e
                taken := s.taken + 1
                stats := (statsHooks ts rprime coin).expired j k s.now s.stats } := by
              refine ⟨ht.seq, ?_, ?_⟩
              swap
              · have h3 := ht.async.expire hP ht.track (coin s.stats.draws) (t := e.1) (k := k)
                  (by rw [← hE]; exact hmem) hmin
                simpa [statsHooks] using h3
              have hR : releases ({ s with
                  events := s.events.erase e
                  taken := s.taken + 1
                  stats := (statsHooks ts rprime coin).expired j k s.now s.stats } : Sim n Stats) j =
                  releases s j := hcountP (by rw [hev]; simp)
              rw [hR]
              have h3 := ht.track.expire hP (coin s.stats.draws) (t := e.1) (k := k)
                (by rw [← hE]; exact hmem) hmin hle
              rw [← hE] at h3
              simpa [statsHooks] using h3
            have h3 := ih _ s' h1 hl h2 h
            exact h3
          · have htid : (ts i).taskid ≠ (ts j).taskid := fun hh => hj (huniq j hh.symm)
            have h2 : Tracked ts i { s with
                events := s.events.erase e
                taken := s.taken + 1
                stats := (statsHooks ts rprime coin).expired j k s.now s.stats } := by
              refine ht.off ⟨rfl, rfl, fun _ _ => Iff.rfl, ?_, ?_, ?_, le_rfl⟩
              · intro t k'
                apply hcount
                intro hh; rw [hh] at hev; simp only [Ev.deadline.injEq] at hev
                exact hj hev.1.symm
              · exact hcountP (by rw [hev]; simp)
              · simp [statsHooks, Function.update_of_ne htid]
            have h3 := ih _ s' h1 hl h2 h
            exact h3
        | release j =>
          rw [hev] at h
          simp only [Option.bind_eq_some_iff] at h
          obtain ⟨s₁, ha, hf⟩ := h
          have hmem' : (e.1, Ev.release j) ∈ s.events := by rw [← hev]; exact hmem
          have hrel := (hs.ev _ _ hmem').1
          have h1 := (hs.pop hl e hmem hle (some j) (by
            intro j'; rw [hev]; simp)).stats s.stats (s.taken + 1)
          obtain ⟨h2, h3⟩ := addReady_inv boot fuel j _ s₁ h1 (by
            show (s.job j).release ≤ s.now
            omega) ha
          have hl' : Later ts s₁ := by
            intro j' hj'
            rw [h3.bus] at hj'
            have hne : j' ≠ j := by
              rintro rfl
              exact h1.not_bus.1 hj'
            rw [h3.job j' hne]
            exact hl j' hj'
          have ht1 : Tracked ts i s₁ := by
            by_cases hj : j = i
            · subst hj
              have h0 : releases ({ s with events := s.events.erase e, taken := s.taken + 1 } :
                  Sim n Stats) j = 0 := by
                unfold releases
                rw [List.countP_eq_zero]
                rintro ⟨r, e'⟩ hr
                simp only [decide_eq_true_eq]
                rintro rfl
                exact h1.not_bus.2.2 r hr
              apply addReady_tracked hcrit boot fuel _ s₁ h0 ht.seq _ _ ht.async ha
              · show (s.job j).release = _
                rw [(hs.rel j).2, ht.seq, Nat.add_sub_cancel]
              have hR : releases s j = 1 := by
                have hpl := hs.place_none j
                unfold CanSim.place at hpl
                have hpos : 0 < s.events.countP (fun e => decide (e.2 = .release j)) := by
                  rw [List.countP_pos_iff]
                  exact ⟨_, hmem', by simp⟩
                unfold releases
                omega
              have h4 := ht.track
              rw [hR, Nat.add_sub_cancel] at h4
              refine h4.frame rfl (fun _ _ => Iff.rfl) ?_ le_rfl
              intro t k
              apply hcount
              intro hh; rw [hh] at hev; simp at hev
            · have hoff := addReady_off (i := i) boot j hj fuel _ s₁ ha
              refine Tracked.off ?_ hoff
              refine ht.off ⟨rfl, rfl, fun _ _ => Iff.rfl, ?_, ?_, rfl, le_rfl⟩
              · intro t k
                apply hcount
                intro hh; rw [hh] at hev; simp at hev
              · exact hcountP (by rw [hev]; simp only [ne_eq, Ev.release.injEq]; exact hj)
          exact ih s₁ s' h2 hl' ht1 hf

theorem finish_tracked (hcrit : (ts i).critical = false)
    (huniq : ∀ j, (ts j).taskid = (ts i).taskid → j = i) (boot fuel until_ : ℕ)
    (s s' : Sim n Stats) (hs : Rest ts faults s) (hnow : s.now ≤ until_)
    (hstrict : s.bus = some i → s.now < until_)
    (hmin : ∀ e ∈ s.events, until_ ≤ e.1) (ht : Tracked ts i s)
    (h : finish ts (statsHooks ts rprime coin) boot fuel (until_ - s.now) { s with now := until_ } =
      some s') : Tracked ts i s' := by
  have hi := hs.inv
  unfold finish at h
  cases hb : s.bus with
  | none =>
    simp only [hb, Option.some.injEq] at h
    subst h
    exact ht.off ⟨rfl, rfl, fun _ _ => Iff.rfl, fun _ _ => rfl, rfl, rfl, hnow⟩
  | some j =>
    simp only [hb, Sim.setJob, Function.update_self] at h
    split_ifs at h with hc hr
    · simp only [retransmit, Sim.setJob, Function.update_self, Function.update_idem,
        Option.some.injEq] at h
      subst h
      refine ht.off ⟨?_, ?_, ?_, fun _ _ => rfl, rfl, rfl, ?_⟩
      · by_cases hj : i = j
        · subst hj; simp
        · simp [Function.update_of_ne hj]
      · simp
      · simp
      · show s.now ≤ until_ + 29
        omega
    · simp only [completed, Sim.setJob, Function.update_self, Function.update_idem,
        Option.map_eq_some_iff] at h
      obtain ⟨s₁, ha, rfl⟩ := h
      have hlast : Off ts i s₁ { s₁ with now := s₁.now + 3 } :=
        ⟨rfl, rfl, fun _ _ => Iff.rfl, fun _ _ => rfl, rfl, rfl, by simp⟩
      refine Tracked.off ?_ hlast
      by_cases hj : j = i
      · subst hj
        have hR : releases s j = 0 := by
          have hpl := hi.place_none j
          unfold CanSim.place at hpl
          rw [hb] at hpl
          simp only [if_true] at hpl
          unfold releases
          omega
        have htr := ht.track
        rw [hR, Nat.sub_zero] at htr
        have hseq := ht.seq
        have hrel := (hi.rel j).2
        have hsend := htr.send hcrit (hstrict hb) hmin
          { s.job j with allocation := (s.job j).allocation + (until_ - s.now) } hseq
        have hasend := ht.async.send htr hcrit (hstrict hb) hmin
          { s.job j with allocation := (s.job j).allocation + (until_ - s.now) } hseq
        unfold addRelease at ha
        have hL : lastDone (s.log ++ [BusEvent.sent j (s.job j).seqno until_]) j =
            lastDone s.log j + 1 := by
          simp [hseq]
        split_ifs at ha with hn
        · simp only [Function.update_self, Option.some.injEq] at ha
          subst ha
          refine ⟨?_, ?_, ?_⟩
          · simp [Job.initNext]
          swap
          · simp only
            rw [← hseq] at hasend
            have h5 := hasend { s.job j with
                allocation := (s.job j).allocation + (until_ - s.now)
                hostFaults := (completedSync (ts j) { s.job j with allocation := (s.job j).allocation + (until_ - s.now) } until_ (s.stats.sync (ts j).taskid)).1 } rfl rprime
            simpa [statsHooks] using h5
          · have hR' : ∀ x : ℕ, (s.events ++ [(x, Ev.release j)]).countP
                (fun e => decide (e.2 = .release j)) = 1 := by
              intro x
              rw [countP_append_release]
              unfold releases at hR
              rw [hR]
              simp
            simp only [releases, hR']
            rw [hL, Nat.add_sub_cancel]
            rw [← hseq] at hsend ⊢
            refine Track.frame (L := s.log ++ [BusEvent.sent j (s.job j).seqno until_])
              (events := s.events) (now := until_) ?_ rfl (fun _ _ => Iff.rfl) ?_ le_rfl
            · simpa [statsHooks] using hsend
            · intro t k
              apply count_append_other
              simp
        · apply addReady_tracked hcrit boot fuel _ s₁ _ _ _ _ _ ha
          · exact hR
          · simp [Job.initNext]
          · simp only [Function.update_self, Job.initNext]
            rw [hL, hrel, hseq, Nat.add_sub_cancel, Nat.add_mul, Nat.one_mul]
          · simp only
            rw [hL]
            rw [← hseq] at hsend ⊢
            simpa [statsHooks] using hsend
          · simp only
            rw [← hseq] at hasend
            have h5 := hasend { s.job j with
                allocation := (s.job j).allocation + (until_ - s.now)
                hostFaults := (completedSync (ts j) { s.job j with allocation := (s.job j).allocation + (until_ - s.now) } until_ (s.stats.sync (ts j).taskid)).1 } rfl rprime
            simpa [statsHooks] using h5
      · have htid : (ts i).taskid ≠ (ts j).taskid := fun hh => hj (huniq j hh.symm)
        unfold addRelease at ha
        split_ifs at ha with hn
        · simp only [Function.update_self, Option.some.injEq] at ha
          subst ha
          refine ht.off ⟨?_, ?_, ?_, ?_, ?_, ?_, hnow⟩
          · simp [Function.update_of_ne (Ne.symm hj)]
          · simp [hj]
          · intro k t
            simp only [List.mem_append, List.mem_singleton, BusEvent.sent.injEq]
            constructor
            · rintro (hh | hh)
              · exact hh
              · exact absurd hh.1.symm hj
            · exact Or.inl
          · intro t k
            apply count_append_other
            simp
          · simp only [releases, countP_append_release]
            simp [hj]
          · simp [statsHooks, Function.update_of_ne htid]
        · refine Tracked.off ?_ (addReady_off (i := i) boot j hj fuel _ s₁ ha)
          refine ht.off ⟨?_, ?_, ?_, fun _ _ => rfl, rfl, ?_, hnow⟩
          · simp [Function.update_of_ne (Ne.symm hj)]
          · simp [hj]
          · intro k t
            simp only [List.mem_append, List.mem_singleton, BusEvent.sent.injEq]
            constructor
            · rintro (hh | hh)
              · exact hh
              · exact absurd hh.1.symm hj
            · exact Or.inl
          · simp [statsHooks, Function.update_of_ne htid]
    · simp only [Option.some.injEq] at h
      subst h
      refine ht.off ⟨?_, rfl, fun _ _ => Iff.rfl, fun _ _ => rfl, rfl, rfl, hnow⟩
      by_cases hj : i = j
      · subst hj; simp
      · simp [Function.update_of_ne hj]

theorem schedule_tracked (s : Sim n Stats) (ht : Tracked ts i s)
    (hskip : ∀ k t, (schedule ts ord s).log = s.log ++ [.start i k t] → k = lastDone s.log i + 1) :
    Tracked ts i (schedule ts ord s) := by
  unfold schedule at hskip ⊢
  cases hb : s.bus with
  | some j => exact ht
  | none =>
    cases hm : ord.msg s.taken s.pending with
    | none => exact ht
    | some j =>
      rw [hb, hm] at hskip
      simp only [Sim.setJob] at hskip ⊢
      refine ht.off ⟨?_, ?_, ?_, ?_, ?_, rfl, le_rfl⟩
      · by_cases hj : i = j
        · subst hj
          simp only [Function.update_self]
          rw [hskip _ _ rfl, ht.seq]
        · simp [Function.update_of_ne hj]
      · simp
      · simp
      · intro t k
        apply count_append_other
        simp
      · simp only [releases, countP_append_release]
        simp

theorem log_prefix (L₀ : List (BusEvent n)) {σ : Type} (hooks : Hooks n σ) :
    Follows hooks (fun _ L => L₀ <+: L) :=
  ⟨fun _ _ _ _ _ h => h.trans (List.prefix_append _ _),
    fun _ _ _ _ _ h => h.trans (List.prefix_append _ _),
    fun _ _ _ _ _ h => h.trans (List.prefix_append _ _),
    fun _ _ _ _ _ h => h.trans (List.prefix_append _ _), fun _ _ _ _ _ h => h⟩

theorem simulate_tracked (hord : ord.Proper ts) (hP : ∀ i, 0 < (ts i).period)
    (hC : 0 < (ts i).wcet) (hcrit : (ts i).critical = false)
    (huniq : ∀ j, (ts j).taskid = (ts i).taskid → j = i) (boot end_ : ℕ) :
    ∀ (fuel : ℕ) (s s' : Sim n Stats), Rest ts faults s →
    (s.bus = some i → ∀ e ∈ s.events, s.now < e.1) → Tracked ts i s →
    simulateUntil ts (statsHooks ts rprime coin) ord boot end_ fuel s = some s' →
    (∀ L₁ k t L₂, s'.log = L₁ ++ .start i k t :: L₂ → k = lastDone L₁ i + 1) →
    Tracked ts i s' := by
  intro fuel
  induction fuel with
  | zero => intro s s' _ _ _ h; simp [simulateUntil] at h
  | succ fuel ih =>
    intro s s' hs hst ht h hskip
    unfold simulateUntil at h
    split_ifs at h with hc
    · cases he : ord.event s.taken s.events with
      | none => rw [he] at h; simp only [Option.some.injEq] at h; subst h; exact ht
      | some e =>
        rw [he] at h
        simp only [Option.bind_eq_some_iff] at h
        obtain ⟨s₁, h1, h2⟩ := h
        obtain ⟨hmem, hmin⟩ := hord.event_some he
        have hnow := hs.future e hmem
        have hrest := advance_rest hord hP boot fuel e.1 s s₁ hs hnow hmin h1
        have hpre := simulate_follows (log_prefix s₁.log _) boot end_ fuel s₁ s'
          (List.prefix_refl _) h2
        unfold advance at h1
        simp only [Option.map_eq_some_iff, Option.bind_eq_some_iff] at h1
        obtain ⟨s₃, ⟨s₂, h3, h4⟩, rfl⟩ := h1
        obtain ⟨a1, a2, a3, _⟩ := finish_inv boot fuel e.1 s s₂ hs hnow hmin h3
        obtain ⟨b1, b2, b3, b4, b5, b6⟩ := fire_inv hord boot fuel s₂ s₃ a1 a2 h4
        have t2 := finish_tracked hcrit huniq boot fuel e.1 s s₂ hs hnow
          (fun hb => hst hb e hmem) hmin ht h3
        have t3 := fire_tracked hord (hP i) hcrit huniq boot fuel s₂ s₃ a1 a2 t2 h4
        have t4 : Tracked ts i (schedule ts ord s₃) := by
          apply schedule_tracked s₃ t3
          intro k t hlog
          obtain ⟨L₂, hL₂⟩ := hpre
          apply hskip s₃.log k t L₂
          rw [← hL₂, hlog]
          simp
        refine ih _ s' hrest ?_ t4 h2 hskip
        unfold schedule
        cases hb : s₃.bus with
        | some j =>
          simp only
          intro _ e' he'
          rw [b3]
          exact b6 e' he'
        | none =>
          cases hm : ord.msg s₃.taken s₃.pending with
          | none =>
            simp only
            intro hb'
            rw [hb] at hb'
            simp at hb'
          | some j =>
            simp only [Sim.setJob, Option.some.injEq]
            rintro rfl e' he'
            rcases List.mem_append.mp he' with he' | he'
            · rw [b3]
              exact b6 e' he'
            · simp only [List.mem_singleton] at he'
              subst he'
              have hcost := b1.cost j
              have hall := (b1.off j (by rw [hb]; simp)).1
              have : ∀ J : Job, (J.updateSeqno (ts j) s₃.now).cost = J.cost ∧
                  (J.updateSeqno (ts j) s₃.now).allocation = J.allocation := by
                intro J
                unfold Job.updateSeqno
                simp only
                split_ifs <;> exact ⟨rfl, rfl⟩
              simp only [(this _).1, (this _).2]
              omega
    · simp only [Option.some.injEq] at h; subst h; exact ht

end Verif.CanSim
