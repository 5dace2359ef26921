/-
Lemmas about the CAN bus simulator: it ends, and observers follow the log.
-/
import Verif.Lemmas.CanSim
import Mathlib.Algebra.Order.BigOperators.Group.List

namespace Verif.CanSim
open Verif.Spec

variable {n : ℕ} {σ : Type} {ts : Fin n → Msg} {faults : List ℕ} {hooks : Hooks n σ}
  {ord : Order n}

/-! ### More rounds do not change the result -/

theorem addReady_mono (boot : ℕ) : ∀ (fuel fuel' : ℕ) (s s' : Sim n σ) (i : Fin n), fuel ≤ fuel' →
    addReady ts boot fuel s i = some s' → addReady ts boot fuel' s i = some s' := by
  intro fuel
  induction fuel with
  | zero => intro fuel' s s' i _ h; simp [addReady] at h
  | succ fuel ih =>
    intro fuel' s s' i hle h
    obtain ⟨f, rfl⟩ : ∃ f, fuel' = f + 1 := ⟨fuel' - 1, by omega⟩
    unfold addReady at h ⊢
    simp only at h ⊢
    split_ifs at h ⊢ with h1 h2 h3
    · exact h
    · exact ih f _ s' i (by omega) h
    · exact h
    · exact h

theorem completed_mono (boot fuel fuel' : ℕ) (s s' : Sim n σ) (i : Fin n) (hle : fuel ≤ fuel')
    (h : completed ts boot fuel s i = some s') : completed ts boot fuel' s i = some s' := by
  unfold completed addRelease at h ⊢
  split_ifs at h ⊢ with h1
  · exact h
  · exact addReady_mono boot fuel fuel' _ s' i hle h

theorem finish_mono (boot fuel fuel' delta : ℕ) (s s' : Sim n σ) (hle : fuel ≤ fuel')
    (h : finish ts hooks boot fuel delta s = some s') :
    finish ts hooks boot fuel' delta s = some s' := by
  unfold finish at h ⊢
  cases hb : s.bus with
  | none => simp only [hb] at h ⊢; exact h
  | some i =>
    simp only [hb] at h ⊢
    split_ifs at h ⊢ with h1 h2
    · exact h
    · simp only [Option.map_eq_some_iff] at h ⊢
      obtain ⟨s₁, h3, h4⟩ := h
      exact ⟨s₁, completed_mono boot fuel fuel' _ s₁ i hle h3, h4⟩
    · exact h

theorem fire_mono (boot : ℕ) : ∀ (fuel fuel' : ℕ) (s s' : Sim n σ), fuel ≤ fuel' →
    fire ts hooks ord boot fuel s = some s' → fire ts hooks ord boot fuel' s = some s' := by
  intro fuel
  induction fuel with
  | zero => intro fuel' s s' _ h; simp [fire] at h
  | succ fuel ih =>
    intro fuel' s s' hle h
    obtain ⟨f, rfl⟩ : ∃ f, fuel' = f + 1 := ⟨fuel' - 1, by omega⟩
    unfold fire at h ⊢
    cases he : ord.event s.taken s.events with
    | none => rw [he] at h; exact h
    | some e =>
      rw [he] at h
      simp only at h ⊢
      split_ifs at h ⊢ with h1
      · exact h
      · cases hev : e.2 with
        | dummy => rw [hev] at h; exact ih f _ s' (by omega) h
        | deadline i k => rw [hev] at h; exact ih f _ s' (by omega) h
        | release i =>
          rw [hev] at h
          simp only [Option.bind_eq_some_iff] at h ⊢
          obtain ⟨s₁, h3, h4⟩ := h
          exact ⟨s₁, addReady_mono boot fuel f _ s₁ i (by omega) h3, ih f _ s' (by omega) h4⟩

theorem advance_mono (boot fuel fuel' u : ℕ) (s s' : Sim n σ) (hle : fuel ≤ fuel')
    (h : advance ts hooks ord boot fuel u s = some s') :
    advance ts hooks ord boot fuel' u s = some s' := by
  unfold advance at h ⊢
  simp only [Option.map_eq_some_iff, Option.bind_eq_some_iff] at h ⊢
  obtain ⟨s₂, ⟨s₁, h1, h2⟩, h3⟩ := h
  exact ⟨s₂, ⟨s₁, finish_mono boot fuel fuel' _ _ s₁ hle h1, fire_mono boot fuel fuel' _ s₂ hle h2⟩, h3⟩

/-! ### Each step ends -/

theorem simulate_mono (boot end_ : ℕ) : ∀ (fuel fuel' : ℕ) (s s' : Sim n σ), fuel ≤ fuel' →
    simulateUntil ts hooks ord boot end_ fuel s = some s' →
    simulateUntil ts hooks ord boot end_ fuel' s = some s' := by
  intro fuel
  induction fuel with
  | zero => intro _ _ _ _ h; simp [simulateUntil] at h
  | succ f ih =>
    intro fuel' s s' hle h
    obtain ⟨g, rfl⟩ : ∃ g, fuel' = g + 1 := ⟨fuel' - 1, by omega⟩
    unfold simulateUntil at h ⊢
    split at h
    · rename_i hc
      rw [if_pos hc]
      cases he : ord.event s.taken s.events with
      | none => rw [he] at h; exact h
      | some e =>
        rw [he] at h
        obtain ⟨s₁, h1, h2⟩ := Option.bind_eq_some_iff.mp h
        exact Option.bind_eq_some_iff.mpr
          ⟨s₁, advance_mono boot f g e.1 s s₁ (by omega) h1, ih g s₁ s' (by omega) h2⟩
    · rename_i hc
      rw [if_neg hc]
      exact h


theorem addReady_ends (hP : ∀ i, 0 < (ts i).period) (boot : ℕ) :
    ∀ (fuel : ℕ) (s : Sim n σ) (i : Fin n), s.now - (s.job i).release < fuel →
    ∃ s', addReady ts boot fuel s i = some s' := by
  intro fuel
  induction fuel with
  | zero => intro s i h; omega
  | succ fuel ih =>
    intro s i h
    unfold addReady
    simp only
    split_ifs with h1 h2 h3
    · exact ⟨_, rfl⟩
    · apply ih
      have := hP i
      simp only [Sim.setJob, Function.update_self, Job.initNext] at h3 ⊢
      omega
    · exact ⟨_, rfl⟩
    · exact ⟨_, rfl⟩

/-- The weight of an event, at time `now`. -/
def weight (now : ℕ) (e : ℕ × Ev n) : ℕ :=
  if e.1 ≤ now then
    match e.2 with
    | .release _ => 2 * (now - e.1) + 3
    | _ => 1
  else 0

def total (s : Sim n σ) : ℕ := (s.events.map (weight s.now)).sum

theorem weight_other (now : ℕ) (e : ℕ × Ev n) (h : ∀ i, e.2 ≠ .release i) : weight now e ≤ 1 := by
  unfold weight
  split_ifs
  · cases he : e.2 with
    | release i => exact absurd he (h i)
    | deadline i k => simp
    | dummy => simp
  · omega

theorem addReady_total (hP : ∀ i, 0 < (ts i).period) (boot : ℕ) :
    ∀ (fuel : ℕ) (s s' : Sim n σ) (i : Fin n), (s.job i).release ≤ s.now →
    addReady ts boot fuel s i = some s' →
    total s' + 1 ≤ total s + (2 * (s.now - (s.job i).release) + 3) := by
  intro fuel
  induction fuel with
  | zero => intro s s' i _ h; simp [addReady] at h
  | succ fuel ih =>
    intro s s' i hle h
    unfold addReady at h
    simp only at h
    have hw : weight s.now ((s.job i).release + (ts i).deadline,
        Ev.deadline i (s.job i).seqno) ≤ 1 := weight_other _ _ (by simp)
    have hp := hP i
    split_ifs at h with h1 h2 h3
    · simp only [Option.some.injEq] at h
      subst h
      simp only [Sim.setJob, Job.initNext] at h3
      simp only [total, Sim.setJob, Job.initNext, List.map_append, List.map_cons, List.map_nil,
        List.sum_append, List.sum_cons, List.sum_nil]
      have hw2 : weight s.now ((s.job i).release + (ts i).period, Ev.release i) ≤
          if (s.job i).release + (ts i).period = s.now then 3 else 0 := by
        unfold weight
        split_ifs with a b
        · simp only at a b ⊢; omega
        · simp only at a b ⊢; omega
        · omega
        · omega
      split_ifs at hw2 with a
      · omega
      · omega
    · have hlt : (s.job i).release + (ts i).period < s.now := by
        simp only [Sim.setJob, Job.initNext] at h3
        omega
      have := ih _ s' i (by
        simp only [Sim.setJob, Function.update_self, Job.initNext]
        omega) h
      simp only [total, Sim.setJob, Function.update_self, Job.initNext, List.map_append,
        List.map_cons, List.map_nil, List.sum_append, List.sum_cons, List.sum_nil] at this ⊢
      omega
    · simp only [Option.some.injEq] at h
      subst h
      simp only [total, Sim.setJob, List.map_append, List.map_cons, List.map_nil,
        List.sum_append, List.sum_cons, List.sum_nil]
      omega
    · simp only [Option.some.injEq] at h
      subst h
      simp only [total, List.map_append, List.map_cons, List.map_nil,
        List.sum_append, List.sum_cons, List.sum_nil]
      omega

theorem fire_ends (hord : ord.Proper ts) (hP : ∀ i, 0 < (ts i).period) (boot : ℕ) :
    ∀ (fuel : ℕ) (s : Sim n σ), Inv ts faults none s → Later ts s →
    total s + s.now + 1 < fuel → ∃ s', fire ts hooks ord boot fuel s = some s' := by
  intro fuel
  induction fuel with
  | zero => intro s _ _ h; omega
  | succ fuel ih =>
    intro s hs hl hf
    unfold fire
    cases he : ord.event s.taken s.events with
    | none => exact ⟨_, rfl⟩
    | some e =>
      simp only
      obtain ⟨hmem, -⟩ := hord.event_some he
      split_ifs with hgt
      · exact ⟨_, rfl⟩
      · have hle : e.1 ≤ s.now := by omega
        have hsum : (s.events.map (weight s.now)).sum =
            weight s.now e + ((s.events.erase e).map (weight s.now)).sum := by
          have := ((List.perm_cons_erase hmem).map (weight s.now)).sum_eq
          rw [this, List.map_cons, List.sum_cons]
        cases hev : e.2 with
        | dummy =>
          simp only
          have h1 := (hs.pop hl e hmem hle none (by simp [hev])).stats s.stats (s.taken + 1)
          have hw : weight s.now e = 1 := by simp [weight, hle, hev]
          apply ih _ h1 hl
          simp only [total] at hf ⊢
          omega
        | deadline i k =>
          simp only
          have h1 := (hs.pop hl e hmem hle none (by simp [hev])).stats
            (hooks.expired i k s.now s.stats) (s.taken + 1)
          have hw : weight s.now e = 1 := by simp [weight, hle, hev]
          apply ih _ h1 hl
          simp only [total] at hf ⊢
          omega
        | release i =>
          simp only [Option.bind_eq_some_iff]
          have hmem' : (e.1, Ev.release i) ∈ s.events := by rw [← hev]; exact hmem
          have hrel := (hs.ev _ _ hmem').1
          have hw : weight s.now e = 2 * (s.now - e.1) + 3 := by simp [weight, hle, hev]
          have h1 := (hs.pop hl e hmem hle (some i) (by
            intro j; rw [hev]; simp)).stats s.stats (s.taken + 1)
          obtain ⟨s₁, ha⟩ := addReady_ends hP boot fuel
            ({ s with events := s.events.erase e, taken := s.taken + 1 } : Sim n σ) i (by
              show s.now - (s.job i).release < fuel
              omega)
          have ht := addReady_total hP boot fuel _ s₁ i (by
            show (s.job i).release ≤ s.now
            omega) ha
          obtain ⟨h2, h3⟩ := addReady_inv boot fuel i _ s₁ h1 (by
            show (s.job i).release ≤ s.now
            omega) ha
          have hl' : Later ts s₁ := by
            intro j hj
            rw [h3.bus] at hj
            have hne : j ≠ i := by
              rintro rfl
              exact h1.not_bus.1 hj
            rw [h3.job j hne]
            exact hl j hj
          have hn : s₁.now = s.now := h3.now
          obtain ⟨s', hs'⟩ := ih s₁ h2 hl' (by
            simp only [total] at hf ht ⊢
            rw [hn] at ht ⊢
            omega)
          exact ⟨s', s₁, ha, hs'⟩

theorem completed_ends (hP : ∀ i, 0 < (ts i).period) (boot fuel : ℕ) (s : Sim n σ) (i : Fin n)
    (h : s.now < fuel) : ∃ s', completed ts boot fuel s i = some s' := by
  unfold completed addRelease
  split_ifs with h3
  · exact ⟨_, rfl⟩
  · apply addReady_ends hP
    simp only [Sim.setJob] at h3 ⊢
    omega

theorem finish_ends (hP : ∀ i, 0 < (ts i).period) (boot delta : ℕ) (s : Sim n σ) :
    ∃ s', finish ts hooks boot (s.now + 1) delta s = some s' := by
  unfold finish
  cases hb : s.bus with
  | none => exact ⟨_, rfl⟩
  | some i =>
    simp only
    split_ifs with h1 h2
    · exact ⟨_, rfl⟩
    · have key : ∀ s₁ : Sim n σ, s₁.now = s.now → ∃ s', (completed ts boot (s.now + 1) s₁ i).map
          (fun s => { s with now := s.now + 3 }) = some s' := by
        intro s₁ hs₁
        obtain ⟨s₂, h3⟩ := completed_ends hP boot (s.now + 1) s₁ i (by omega)
        rw [h3]
        exact ⟨_, rfl⟩
      exact key _ rfl
    · exact ⟨_, rfl⟩

theorem advance_ends (hord : ord.Proper ts) (hP : ∀ i, 0 < (ts i).period) (boot u : ℕ)
    (s : Sim n σ) (hs : Rest ts faults s) (hnow : s.now ≤ u) (hmin : ∀ e ∈ s.events, u ≤ e.1) :
    ∃ F s', ∀ fuel, F ≤ fuel → advance ts hooks ord boot fuel u s = some s' := by
  obtain ⟨s₁, h1⟩ := finish_ends (hooks := hooks) hP boot (u - s.now) ({ s with now := u } : Sim n σ)
  obtain ⟨a1, a2, a3, _⟩ := finish_inv boot _ u s s₁ hs hnow hmin h1
  obtain ⟨s₂, h2⟩ := fire_ends (hooks := hooks) hord hP boot (total s₁ + s₁.now + 2) s₁ a1 a2 (by omega)
  refine ⟨(u + 1) + (total s₁ + s₁.now + 2), schedule ts ord s₂, fun fuel hf => ?_⟩
  apply advance_mono boot ((u + 1) + (total s₁ + s₁.now + 2)) fuel u s _ hf
  unfold advance
  simp only [Option.map_eq_some_iff, Option.bind_eq_some_iff]
  exact ⟨s₂, ⟨s₁, finish_mono boot _ _ _ _ _ (by
    show u + 1 ≤ _
    omega) h1, fire_mono boot _ _ _ _ (by omega) h2⟩, rfl⟩

/-! ### Time passes -/

/-- Only an empty transmission ends now. -/
def Fresh (ts : Fin n → Msg) (s : Sim n σ) : Prop :=
  ∀ e ∈ s.events, s.now < e.1 ∨ ∃ i, s.bus = some i ∧ (ts i).wcet = 0

theorem finish_progress (boot fuel : ℕ) (s s' : Sim n σ) (i : Fin n) (hb : s.bus = some i)
    (hc : (s.job i).cost = 0)
    (h : finish ts hooks boot fuel 0 s = some s') : s.now < s'.now := by
  unfold finish at h
  simp only [hb, Sim.setJob, Function.update_self, hc, Nat.zero_le, if_true] at h
  split_ifs at h with h1
  · simp only [retransmit, Option.some.injEq] at h
    subst h
    show s.now < s.now + 29
    omega
  · simp only [Option.map_eq_some_iff] at h
    obtain ⟨s₁, h2, rfl⟩ := h
    have : s₁.now = s.now := by
      unfold completed addRelease at h2
      split_ifs at h2
      · simp only [Option.some.injEq] at h2
        subst h2
        rfl
      · have key : ∀ (fuel : ℕ) (s s' : Sim n σ), addReady ts boot fuel s i = some s' →
            s'.now = s.now := by
          intro fuel
          induction fuel with
          | zero => intro s s' h; simp [addReady] at h
          | succ fuel ih =>
            intro s s' h
            unfold addReady at h
            simp only at h
            split_ifs at h
            · simp only [Option.some.injEq] at h; subst h; rfl
            · have h3 := ih _ s' h
              exact h3
            · simp only [Option.some.injEq] at h; subst h; rfl
            · simp only [Option.some.injEq] at h; subst h; rfl
        have h3 := key fuel _ _ h2
        exact h3
    show s.now < s₁.now + 3
    omega

theorem advance_progress (hord : ord.Proper ts) (boot fuel u : ℕ)
    (s s' : Sim n σ) (hs : Rest ts faults s) (hnow : s.now ≤ u) (hmin : ∀ e ∈ s.events, u ≤ e.1)
    (hmem : ∃ e ∈ s.events, e.1 = u)
    (h : advance ts hooks ord boot fuel u s = some s') :
    Fresh ts s' ∧ s.now ≤ s'.now ∧ (Fresh ts s → s.now < s'.now) := by
  unfold advance at h
  simp only [Option.map_eq_some_iff, Option.bind_eq_some_iff] at h
  obtain ⟨s₂, ⟨s₁, h1, h2⟩, rfl⟩ := h
  obtain ⟨a1, a2, a3, a4⟩ := finish_inv boot fuel u s s₁ hs hnow hmin h1
  obtain ⟨b1, b2, b3, b4, b5, b6⟩ := fire_inv hord boot fuel s₁ s₂ a1 a2 h2
  have hn : (schedule ts ord s₂).now = s₁.now := by
    rw [← b3]
    unfold schedule
    cases s₂.bus <;> cases ord.msg s₂.taken s₂.pending <;> rfl
  refine ⟨?_, by omega, ?_⟩
  · intro e he
    rw [hn]
    unfold schedule at he ⊢
    cases hb : s₂.bus with
    | some i =>
      simp only [hb] at he
      exact Or.inl (b6 e he)
    | none =>
      cases hm : ord.msg s₂.taken s₂.pending with
      | none =>
        simp only [hb, hm] at he
        exact Or.inl (b6 e he)
      | some i =>
        simp only [hb, hm, Sim.setJob] at he ⊢
        rcases List.mem_append.mp he with he | he
        · exact Or.inl (b6 e he)
        · simp only [List.mem_singleton] at he
          by_cases hz : (ts i).wcet = 0
          · exact Or.inr ⟨i, rfl, hz⟩
          · left
            have h3 := b1.cost i
            have h4 := (b1.off i (by rw [hb]; simp)).1
            have h5 : ((s₂.job i).updateSeqno (ts i) s₂.now).cost = (s₂.job i).cost ∧
                ((s₂.job i).updateSeqno (ts i) s₂.now).allocation = (s₂.job i).allocation := by
              unfold Job.updateSeqno
              simp only
              split_ifs <;> exact ⟨rfl, rfl⟩
            rw [he]
            simp only [h5.1, h5.2, h3, h4]
            rw [b3]
            omega
  · intro hfr
    rw [hn]
    obtain ⟨e, he, rfl⟩ := hmem
    rcases hfr e he with hlt | ⟨i, hb, hz⟩
    · omega
    · by_cases heq : e.1 = s.now
      · rw [heq] at h1 a4
        have h3 := finish_progress boot fuel ({ s with now := s.now } : Sim n σ) s₁ i hb
          ((hs.inv.cost i).trans hz) (by rw [Nat.sub_self] at h1; exact h1)
        exact h3
      · omega

theorem simulate_ends (hord : ord.Proper ts) (hP : ∀ i, 0 < (ts i).period) (boot end_ : ℕ) :
    ∀ (d : ℕ) (s : Sim n σ), Rest ts faults s → end_ + 1 - s.now < d →
    (Fresh ts s ∨ end_ + 2 - s.now < d) →
    ∃ F s', ∀ fuel, F ≤ fuel → simulateUntil ts hooks ord boot end_ fuel s = some s' := by
  intro d
  induction d with
  | zero => intro s _ h; omega
  | succ d ih =>
    intro s hs hd hfr
    by_cases hc : s.now ≤ end_ ∧ hooks.aborted s.stats = false
    · cases he : ord.event s.taken s.events with
      | none =>
        refine ⟨1, s, fun fuel hf => ?_⟩
        obtain ⟨f, rfl⟩ : ∃ f, fuel = f + 1 := ⟨fuel - 1, by omega⟩
        unfold simulateUntil
        rw [if_pos hc, he]
      | some e =>
        obtain ⟨hmem, hmin⟩ := hord.event_some he
        have hnow := hs.future e hmem
        obtain ⟨F₁, s₁, h1⟩ := advance_ends (hooks := hooks) hord hP boot e.1 s hs hnow hmin
        have hr := advance_rest hord hP boot F₁ e.1 s s₁ hs hnow hmin (h1 F₁ le_rfl)
        obtain ⟨p1, p2, p3⟩ := advance_progress hord boot F₁ e.1 s s₁ hs hnow hmin ⟨e, hmem, rfl⟩
          (h1 F₁ le_rfl)
        obtain ⟨F₂, s', h2⟩ := ih s₁ hr (by
          rcases hfr with hfr | hfr
          · have := p3 hfr
            omega
          · omega) (Or.inl p1)
        refine ⟨F₁ + F₂ + 1, s', fun fuel hf => ?_⟩
        obtain ⟨f, rfl⟩ : ∃ f, fuel = f + 1 := ⟨fuel - 1, by omega⟩
        unfold simulateUntil
        rw [if_pos hc, he]
        simp only [Option.bind_eq_some_iff]
        exact ⟨s₁, h1 f (by omega), h2 f (by omega)⟩
    · refine ⟨1, s, fun fuel hf => ?_⟩
      obtain ⟨f, rfl⟩ : ∃ f, fuel = f + 1 := ⟨fuel - 1, by omega⟩
      unfold simulateUntil
      rw [if_neg hc]

/-! ### Observers -/

/-- A relation between the state of an observer and the log that the callbacks maintain. -/
structure Follows (hooks : Hooks n σ) (Q : σ → List (BusEvent n) → Prop) : Prop where
  start : ∀ st L i k t, Q st L → Q st (L ++ [.start i k t])
  failed : ∀ st L i k t, Q st L → Q st (L ++ [.failed i k t])
  omitted : ∀ st L i k t, Q st L → Q st (L ++ [.omitted i k t])
  sent : ∀ st L i j t, Q st L → Q (hooks.completed i j t st).2 (L ++ [.sent i j.seqno t])
  expired : ∀ st L i k t, Q st L → Q (hooks.expired i k t st) L

variable {Q : σ → List (BusEvent n) → Prop}

theorem addReady_follows (hQ : Follows hooks Q) (boot : ℕ) :
    ∀ (fuel : ℕ) (s s' : Sim n σ) (i : Fin n), Q s.stats s.log →
    addReady ts boot fuel s i = some s' → Q s'.stats s'.log := by
  intro fuel
  induction fuel with
  | zero => intro s s' i _ h; simp [addReady] at h
  | succ fuel ih =>
    intro s s' i hq h
    unfold addReady at h
    simp only at h
    split_ifs at h
    · simp only [Option.some.injEq] at h; subst h; exact hQ.omitted _ _ _ _ _ hq
    · exact ih _ s' i (hQ.omitted _ _ _ _ _ hq) h
    · simp only [Option.some.injEq] at h; subst h; exact hq
    · simp only [Option.some.injEq] at h; subst h; exact hq

theorem fire_follows (hQ : Follows hooks Q) (boot : ℕ) :
    ∀ (fuel : ℕ) (s s' : Sim n σ), Q s.stats s.log →
    fire ts hooks ord boot fuel s = some s' → Q s'.stats s'.log := by
  intro fuel
  induction fuel with
  | zero => intro s s' _ h; simp [fire] at h
  | succ fuel ih =>
    intro s s' hq h
    unfold fire at h
    cases he : ord.event s.taken s.events with
    | none => rw [he] at h; simp only [Option.some.injEq] at h; subst h; exact hq
    | some e =>
      rw [he] at h
      simp only at h
      split_ifs at h with h1
      · simp only [Option.some.injEq] at h; subst h; exact hq
      · cases hev : e.2 with
        | dummy =>
          rw [hev] at h
          exact ih { s with events := s.events.erase e, taken := s.taken + 1 } s' hq h
        | deadline i k => rw [hev] at h; exact ih _ s' (hQ.expired _ _ _ _ _ hq) h
        | release i =>
          rw [hev] at h
          simp only [Option.bind_eq_some_iff] at h
          obtain ⟨s₁, h3, h4⟩ := h
          exact ih _ s' (addReady_follows hQ boot fuel
            { s with events := s.events.erase e, taken := s.taken + 1 } s₁ i hq h3) h4

theorem finish_follows (hQ : Follows hooks Q) (boot fuel delta : ℕ) (s s' : Sim n σ)
    (hq : Q s.stats s.log) (h : finish ts hooks boot fuel delta s = some s') :
    Q s'.stats s'.log := by
  unfold finish at h
  cases hb : s.bus with
  | none => simp only [hb, Option.some.injEq] at h; subst h; exact hq
  | some i =>
    simp only [hb] at h
    split_ifs at h with h1 h2
    · simp only [Option.some.injEq] at h; subst h; exact hQ.failed _ _ _ _ _ hq
    · simp only [Option.map_eq_some_iff] at h
      obtain ⟨s₁, h3, rfl⟩ := h
      show Q s₁.stats s₁.log
      unfold completed addRelease at h3
      split_ifs at h3
      · simp only [Option.some.injEq] at h3
        subst h3
        exact hQ.sent _ _ _ _ _ hq
      · exact addReady_follows hQ boot fuel _ s₁ i (hQ.sent _ _ _ _ _ hq) h3
    · simp only [Option.some.injEq] at h; subst h; exact hq

theorem simulate_follows (hQ : Follows hooks Q) (boot end_ : ℕ) :
    ∀ (fuel : ℕ) (s s' : Sim n σ), Q s.stats s.log →
    simulateUntil ts hooks ord boot end_ fuel s = some s' → Q s'.stats s'.log := by
  intro fuel
  induction fuel with
  | zero => intro s s' _ h; simp [simulateUntil] at h
  | succ fuel ih =>
    intro s s' hq h
    unfold simulateUntil at h
    split_ifs at h with hc
    · cases he : ord.event s.taken s.events with
      | none => rw [he] at h; simp only [Option.some.injEq] at h; subst h; exact hq
      | some e =>
        rw [he] at h
        simp only [Option.bind_eq_some_iff] at h
        obtain ⟨s₁, h1, h2⟩ := h
        refine ih s₁ s' ?_ h2
        unfold advance at h1
        simp only [Option.map_eq_some_iff, Option.bind_eq_some_iff] at h1
        obtain ⟨s₃, ⟨s₂, h3, h4⟩, rfl⟩ := h1
        have h5 := fire_follows hQ boot fuel s₂ s₃
          (finish_follows hQ boot fuel _ ({ s with now := e.1 } : Sim n σ) s₂ hq h3) h4
        unfold schedule
        cases hb : s₃.bus with
        | some i => exact h5
        | none =>
          cases hm : ord.msg s₃.taken s₃.pending with
          | none => exact h5
          | some i => exact hQ.start _ _ _ _ _ h5
    · simp only [Option.some.injEq] at h; subst h; exact hq

end Verif.CanSim
