/-
C42: the RUN reduction (`schedcat/sched/run.py`).

The specification describes a reduction tree by itself: how the servers of one
level are grouped into packed servers, how the duals form the next level, and
what a schedule driven by the tree looks like at one instant.  The theorems
say that `reduce` always ends with such a tree and that, at every instant, the
tree keeps exactly as many servers of the first level running as their total
rate.
-/
import Verif.Model.Run
import Verif.Props.Binpack
import Mathlib.Data.Nat.Log
import Mathlib.Data.List.Perm.Basic
import Mathlib.Tactic.Linarith

namespace Verif.Run
open Verif

/-! ### Specification -/

/-- `packed` groups the servers of `level`: every server of the level is the
client of exactly one packed server, and a packed server has the summed rate
(at most one) and the united deadlines of its clients. -/
structure Groups (packed level : List Server) : Prop where
  clients : (packed.map Server.clients).flatten.Perm level
  rate : ∀ p ∈ packed, p.rate = (p.clients.map Server.rate).sum
  le_one : ∀ p ∈ packed, p.rate ≤ 1
  deadlines : ∀ p ∈ packed, ∀ d, d ∈ p.deadlines ↔ ∃ c ∈ p.clients, d ∈ c.deadlines

/-- `level` consists of the duals of `packed`, in the same order. -/
def Duals (level packed : List Server) : Prop :=
  List.Forall₂ (fun d p => d.rate = 1 - p.rate ∧ d.createdFrom = some p ∧
    d.deadlines = p.deadlines) level packed

/-- A finished reduction of `level`: a list of levels, each consisting of the
duals of the servers into which the level before is grouped, and unit servers
into which the last level is grouped. -/
inductive Reduces : List Server → List Server → List (List Server) → Prop
  | done {level packed : List Server} : Groups packed level → (∀ p ∈ packed, p.rate = 1) →
      Reduces level packed [level]
  | step {level packed next final : List Server} {levels : List (List Server)} :
      Groups packed level → Duals next packed → Reduces next final levels →
      Reduces level final (level :: levels)

/-- The servers that are running at some instant follow the tree: all final
servers run; a running packed server runs exactly one of its clients, one that
does not run runs none; a dual runs iff the server it was made from does
not. -/
structure Instant (running : Server → Bool) (final : List Server)
    (levels : List (List Server)) : Prop where
  final_running : ∀ p ∈ final, running p = true
  final_client : ∀ p ∈ final, p.clients.countP running = 1
  dual : ∀ level ∈ levels.tail, ∀ d ∈ level, ∀ p, d.createdFrom = some p →
    running d = !running p
  client : ∀ level ∈ levels.tail, ∀ d ∈ level, ∀ p, d.createdFrom = some p →
    p.clients.countP running = if running p then 1 else 0

/-! ### Packing one level -/

theorem foldl_deadlines (servers : List Server) : ∀ (acc : Finset ℚ) (d : ℚ),
    d ∈ servers.foldl (fun acc s => acc ∪ s.deadlines) acc ↔
      d ∈ acc ∨ ∃ c ∈ servers, d ∈ c.deadlines := by
  induction servers with
  | nil => simp
  | cons s ss ih =>
    intro acc d
    rw [List.foldl_cons, ih]
    simp [or_assoc]

theorem pack_eq (packing : List (List Server)) (nextId : Option ℕ) :
    ∃ ids : List (Option Ident), ids.length = packing.length ∧
      pack packing nextId = List.zipWith Server.aggregate packing ids := by
  have hnone : packing.map (fun bin => Server.aggregate bin none) =
      List.zipWith Server.aggregate packing (List.replicate packing.length none) := by
    induction packing with
    | nil => rfl
    | cons b bs ih => simp [ih, List.replicate_succ]
  rcases nextId with _ | n
  · exact ⟨_, by simp, hnone⟩
  · unfold pack
    by_cases hn : n = 0
    · simp only [hn, ne_eq, not_true_eq_false, if_false]
      exact ⟨_, by simp, hnone⟩
    · simp only [ne_eq, hn, not_false_eq_true, if_true]
      refine ⟨(List.range packing.length).map (fun i => some (.num (n + i))), by simp, ?_⟩
      apply List.ext_getElem
      · simp
      · intro i h1 h2
        simp

theorem zipWith_aggregate_clients : ∀ (bins : List (List Server)) (ids : List (Option Ident)),
    ids.length = bins.length →
    (List.zipWith Server.aggregate bins ids).map Server.clients = bins
  | [], [], _ => rfl
  | b :: bs, i :: is, h => by
    simp only [List.zipWith_cons_cons, List.map_cons]
    rw [zipWith_aggregate_clients bs is (by simpa using h)]
    rfl

theorem mem_pack {packing : List (List Server)} {nextId : Option ℕ} {p : Server}
    (h : p ∈ pack packing nextId) : p.clients ∈ packing ∧
      ∃ i, p = Server.aggregate p.clients i := by
  obtain ⟨ids, hl, he⟩ := pack_eq packing nextId
  rw [he] at h
  obtain ⟨j, hj, rfl⟩ := List.getElem_of_mem h
  rw [List.getElem_zipWith]
  exact ⟨List.getElem_mem _, _, rfl⟩

theorem pack_clients (packing : List (List Server)) (nextId : Option ℕ) :
    (pack packing nextId).map Server.clients = packing := by
  obtain ⟨ids, hl, he⟩ := pack_eq packing nextId
  rw [he]; exact zipWith_aggregate_clients _ _ hl

theorem pack_length (packing : List (List Server)) (nextId : Option ℕ) :
    (pack packing nextId).length = packing.length := by
  rw [← List.length_map (f := Server.clients), pack_clients]

theorem pack_rates (packing : List (List Server)) (nextId : Option ℕ) :
    (pack packing nextId).map Server.rate = packing.map (Spec.load Server.rate) := by
  obtain ⟨ids, hl, he⟩ := pack_eq packing nextId
  rw [he]
  apply List.ext_getElem
  · simp [hl]
  · intro i h1 h2
    simp [Server.aggregate, Server.rate, Spec.load]

theorem findPacking_spec {level : List Server}
    (h : ∀ s ∈ level, 0 ≤ s.rate ∧ s.rate ≤ 1) :
    (findPacking level).flatten.Perm level ∧
    (∀ b ∈ findPacking level, 0 ≤ Spec.load Server.rate b ∧ Spec.load Server.rate b ≤ 1) ∧
    ((findPacking level).map (Spec.load Server.rate)).Pairwise (fun a b => 1 < a + b) := by
  have hs : (Binpack.sortItemsDesc Server.rate level).Perm level := List.perm_insertionSort _ _
  obtain ⟨-, h2, h3, h4, -⟩ := Binpack.C24_best_fit_on_demand
    (Binpack.sortItemsDesc Server.rate level) 1 (by norm_num) Server.rate
    (fun x hx => h x (hs.subset hx))
  refine ⟨h2.trans hs, fun b hb => ⟨?_, h3 b hb⟩, h4⟩
  apply List.sum_nonneg
  intro r hr
  obtain ⟨s, hsb, rfl⟩ := List.mem_map.1 hr
  exact (h s ((h2.trans hs).subset (List.mem_flatten.2 ⟨b, hb, hsb⟩))).1

theorem pack_groups {level : List Server} (h : ∀ s ∈ level, 0 ≤ s.rate ∧ s.rate ≤ 1)
    (nextId : Option ℕ) : Groups (pack (findPacking level) nextId) level := by
  obtain ⟨h1, h2, -⟩ := findPacking_spec h
  refine ⟨by rw [pack_clients]; exact h1, ?_, ?_, ?_⟩
  · intro p hp
    obtain ⟨_, i, hi⟩ := mem_pack hp
    rw [hi]; rfl
  · intro p hp
    obtain ⟨hm, i, hi⟩ := mem_pack hp
    rw [hi]; exact (h2 _ hm).2
  · intro p hp d
    obtain ⟨_, i, hi⟩ := mem_pack hp
    rw [hi]
    have := foldl_deadlines p.clients ∅ d
    simpa [Server.aggregate, Server.deadlines, Server.clients] using this

theorem duals_spec (packed : List Server) : Duals (duals packed) packed := by
  unfold Duals duals
  rw [List.forall₂_map_left_iff]
  rw [List.forall₂_same]
  exact fun p _ => ⟨rfl, rfl, rfl⟩

theorem totalRate_pack {level : List Server} (h : ∀ s ∈ level, 0 ≤ s.rate ∧ s.rate ≤ 1)
    (nextId : Option ℕ) : totalRate (pack (findPacking level) nextId) = totalRate level := by
  obtain ⟨h1, -, -⟩ := findPacking_spec h
  unfold totalRate
  rw [pack_rates, ← (h1.map Server.rate).sum_eq, List.map_flatten, List.sum_flatten, List.map_map]
  rfl

theorem totalRate_duals (packed : List Server) :
    totalRate (duals packed) = packed.length - totalRate packed := by
  unfold totalRate duals
  induction packed with
  | nil => simp
  | cons p ps ih =>
    simp only [List.map_cons, List.sum_cons, List.length_cons, Nat.cast_add, Nat.cast_one]
    rw [ih]
    simp only [Server.dual, Server.rate]
    ring

theorem duals_range {packed : List Server} (h : ∀ s ∈ packed, 0 ≤ s.rate ∧ s.rate ≤ 1) :
    ∀ s ∈ duals packed, 0 ≤ s.rate ∧ s.rate ≤ 1 := by
  intro s hs
  obtain ⟨p, hp, rfl⟩ := List.mem_map.1 hs
  have := h p hp
  simp only [Server.dual]
  change 0 ≤ 1 - p.rate ∧ 1 - p.rate ≤ 1
  constructor <;> linarith

theorem pack_range {level : List Server} (h : ∀ s ∈ level, 0 ≤ s.rate ∧ s.rate ≤ 1)
    (nextId : Option ℕ) : ∀ s ∈ pack (findPacking level) nextId, 0 ≤ s.rate ∧ s.rate ≤ 1 := by
  obtain ⟨-, h2, -⟩ := findPacking_spec h
  intro p hp
  obtain ⟨hm, i, hi⟩ := mem_pack hp
  rw [hi]; exact h2 _ hm

/-! ### Every finished run is a reduction -/

theorem reduceLoop_spec : ∀ (fuel : ℕ) (init : List (List Server)) (last : List Server)
    (nextId : Option ℕ) (r : List Server × List (List Server)),
    (∀ s ∈ last, 0 ≤ s.rate ∧ s.rate ≤ 1) → reduceLoop fuel init last nextId = some r →
    ∃ levels, r.2 = init ++ levels ∧ Reduces last r.1 levels := by
  intro fuel
  induction fuel with
  | zero => intro init last nextId r _ h; simp [reduceLoop] at h
  | succ fuel ih =>
    intro init last nextId r hl h
    rw [reduceLoop] at h
    by_cases hu : allUnit (pack (findPacking last) nextId) = true
    · simp only [hu, if_true, Option.some.injEq] at h
      subst h
      refine ⟨[last], rfl, Reduces.done (pack_groups hl nextId) ?_⟩
      intro p hp
      have := List.all_eq_true.1 hu p hp
      simpa [Server.isUnit] using this
    · simp only [hu, if_false] at h
      obtain ⟨levels, h1, h2⟩ := ih _ _ _ _ (duals_range (pack_range hl nextId)) h
      exact ⟨last :: levels, by rw [h1]; simp,
        Reduces.step (pack_groups hl nextId) (duals_spec _) h2⟩

theorem ensure_range {servers : List Server} (h : ∀ s ∈ servers, 0 ≤ s.rate ∧ s.rate ≤ 1) :
    ∀ s ∈ ensureIntegerRate servers, 0 ≤ s.rate ∧ s.rate ≤ 1 := by
  intro s hs
  unfold ensureIntegerRate at hs
  simp only at hs
  split_ifs at hs
  · rcases List.mem_append.1 hs with hs | hs
    · exact h s hs
    · rw [List.mem_singleton.1 hs]
      have h1 := Int.le_ceil (totalRate servers)
      have h2 := Int.ceil_lt_add_one (totalRate servers)
      constructor <;> simp only [Server.rate] <;> linarith
  · exact h s hs

theorem ensure_total (servers : List Server) :
    totalRate (ensureIntegerRate servers) = (⌈totalRate servers⌉ : ℤ) := by
  unfold ensureIntegerRate
  simp only
  split_ifs with h
  · unfold totalRate
    simp only [List.map_append, List.map_cons, List.map_nil, List.sum_append, List.sum_singleton,
      Server.rate]
    ring
  · exact (not_not.1 h).symm

theorem totalRate_nonneg {servers : List Server} (h : ∀ s ∈ servers, 0 ≤ s.rate ∧ s.rate ≤ 1) :
    0 ≤ totalRate servers := by
  apply List.sum_nonneg
  intro r hr
  obtain ⟨s, hs, rfl⟩ := List.mem_map.1 hr
  exact (h s hs).1

/-! ### Termination -/

theorem pairwise_lengths : ∀ (l : List ℕ), l.Pairwise (fun a b => 3 ≤ a + b) → (∀ a ∈ l, 1 ≤ a) →
    2 * l.length ≤ l.sum + 1
  | [], _, _ => by simp
  | a :: l, h, h1 => by
    rw [List.pairwise_cons] at h
    have ih := pairwise_lengths l h.2 (fun b hb => h1 b (by simp [hb]))
    have ha := h1 a (by simp)
    simp only [List.length_cons, List.sum_cons]
    by_cases h2 : 2 ≤ a
    · omega
    · -- then all others have at least two
      have ha1 : a = 1 := by omega
      have : ∀ l : List ℕ, (∀ b ∈ l, 3 ≤ a + b) → 2 * l.length ≤ l.sum := by
        intro l
        induction l with
        | nil => simp
        | cons c cs ih =>
          intro hc
          have := ih (fun b hb => hc b (by simp [hb]))
          have := hc c (by simp)
          simp only [List.length_cons, List.sum_cons]
          omega
      have := this l h.1
      omega

theorem two_le_of_pairs {l : List ℚ} (h : l.Pairwise (fun a b => 1 < a + b)) (hl : 2 ≤ l.length)
    (h1 : ∀ a ∈ l, a ≤ 1) : ∀ a ∈ l, 0 < a := by
  induction l with
  | nil => simp
  | cons a as ih =>
    rw [List.pairwise_cons] at h
    intro b hb
    rcases List.mem_cons.1 hb with rfl | hb
    · rcases as with _ | ⟨c, cs⟩
      · simp at hl
      · have := h.1 c (by simp)
        have := h1 c (by simp)
        linarith
    · have := h.1 b hb
      have := h1 a (by simp)
      linarith

/-- Packing a level in which any two rates sum to less than one halves the
number of servers. -/
theorem pack_halves {level : List Server} (h : ∀ s ∈ level, 0 ≤ s.rate ∧ s.rate ≤ 1)
    (hp : level.Pairwise (fun a b => a.rate + b.rate < 1))
    (h2 : 2 ≤ (findPacking level).length) :
    2 * (findPacking level).length ≤ level.length + 1 := by
  obtain ⟨g1, g2, g3⟩ := findPacking_spec h
  have hf : (findPacking level).flatten.Pairwise (fun a b => a.rate + b.rate < 1) :=
    (g1.pairwise_iff (fun {a b} hab => by linarith)).2 hp
  rw [List.pairwise_flatten] at hf
  have hpos := two_le_of_pairs g3 (by simpa using h2) (by
    intro a ha
    obtain ⟨b, hb, rfl⟩ := List.mem_map.1 ha
    exact (g2 b hb).2)
  have hlen : ∀ b ∈ findPacking level, 1 ≤ b.length := by
    intro b hb
    have := hpos _ (List.mem_map.2 ⟨b, hb, rfl⟩)
    rcases b with _ | ⟨x, xs⟩
    · simp [Spec.load] at this
    · simp
  have hpl : ((findPacking level).map List.length).Pairwise (fun a b => 3 ≤ a + b) := by
    rw [List.pairwise_map] at g3 ⊢
    have hboth := g3.and hf.2
    have := hboth.imp_of_mem (S := fun a b : List Server => 3 ≤ a.length + b.length) ?_
    · exact this
    · intro a b ha hb ⟨hab, hlt⟩
      have la := hlen a ha
      have lb := hlen b hb
      by_contra hc
      have ha1 : a.length = 1 := by omega
      have hb1 : b.length = 1 := by omega
      obtain ⟨x, rfl⟩ := List.length_eq_one_iff.1 ha1
      obtain ⟨y, rfl⟩ := List.length_eq_one_iff.1 hb1
      have := hlt x (by simp) y (by simp)
      simp [Spec.load] at hab
      linarith
  have := pairwise_lengths _ hpl (by
    intro a ha
    obtain ⟨b, hb, rfl⟩ := List.mem_map.1 ha
    exact hlen b hb)
  rw [List.length_map] at this
  have hsum : ((findPacking level).map List.length).sum = level.length := by
    rw [← List.length_flatten, g1.length_eq]
  omega

theorem findPacking_pos (level : List Server) : 1 ≤ (findPacking level).length := by
  have key : ∀ (items : List Server) (s : Binpack.State Server), 1 ≤ s.sets.length →
      1 ≤ (Binpack.bestFitDemandLoop 1 Server.rate items s).sets.length := by
    intro items
    induction items with
    | nil => intro s h; simpa [Binpack.bestFitDemandLoop] using h
    | cons x xs ih =>
      intro s h
      rw [Binpack.bestFitDemandLoop]
      cases Binpack.bestFitSel 1 s.sums (Server.rate x) with
      | none => exact ih _ (by simp)
      | some i => exact ih _ (by simpa [Binpack.State.place] using h)
  exact key _ _ (by simp [Binpack.State.init])

theorem rates_one {l : List ℚ} (h1 : ∀ a ∈ l, a ≤ 1) (hs : (l.length : ℚ) ≤ l.sum) :
    ∀ a ∈ l, a = 1 := by
  induction l with
  | nil => simp
  | cons a as ih =>
    simp only [List.length_cons, List.sum_cons, Nat.cast_add, Nat.cast_one] at hs
    have ha := h1 a (by simp)
    have hub : as.sum ≤ as.length := by
      have : ∀ l : List ℚ, (∀ a ∈ l, a ≤ 1) → l.sum ≤ l.length := by
        intro l
        induction l with
        | nil => simp
        | cons b bs ih =>
          intro h
          have := ih (fun c hc => h c (by simp [hc]))
          have := h b (by simp)
          simp only [List.length_cons, List.sum_cons, Nat.cast_add, Nat.cast_one]
          linarith
      exact this as (fun c hc => h1 c (by simp [hc]))
    intro b hb
    rcases List.mem_cons.1 hb with rfl | hb
    · linarith
    · exact ih (fun c hc => h1 c (by simp [hc])) (by linarith) b hb

/-- The loop ends: with `k` servers after the first packing and a positive
integral total rate it takes at most `max 1 ⌈log₂ k⌉` rounds. -/
theorem reduceLoop_ends : ∀ (k : ℕ) (level : List Server) (init : List (List Server))
    (nextId : Option ℕ) (n : ℕ), (∀ s ∈ level, 0 ≤ s.rate ∧ s.rate ≤ 1) →
    totalRate level = n → 0 < n → (findPacking level).length = k →
    ∃ rounds packed levels, rounds ≤ max 1 (Nat.clog 2 k) ∧ levels.length = rounds ∧
      ∀ fuel, rounds ≤ fuel →
        reduceLoop fuel init level nextId = some (packed, init ++ levels) := by
  intro k
  induction k using Nat.strong_induction_on with
  | _ k ih =>
    intro level init nextId n hl ht hn hk
    obtain ⟨g1, g2, g3⟩ := findPacking_spec hl
    have hpt := totalRate_pack hl nextId
    have hpl : (pack (findPacking level) nextId).length = k := by rw [pack_length, hk]
    by_cases hu : allUnit (pack (findPacking level) nextId) = true
    · refine ⟨1, pack (findPacking level) nextId, [level], le_max_left _ _, rfl, ?_⟩
      intro fuel hf
      obtain ⟨f, rfl⟩ : ∃ f, fuel = f + 1 := ⟨fuel - 1, by omega⟩
      rw [reduceLoop]; simp only [hu, if_true]
    · have hr := pack_range hl nextId
      -- the rates of the packed servers
      set packed := pack (findPacking level) nextId with hpk
      have hsum : (packed.map Server.rate).sum = n := by rw [← ht, ← hpt]; rfl
      have hpr : (packed.map Server.rate).Pairwise (fun a b => 1 < a + b) := by
        rw [hpk, pack_rates]; exact g3
      have hle1 : ∀ a ∈ packed.map Server.rate, a ≤ 1 := by
        intro a ha
        obtain ⟨p, hp, rfl⟩ := List.mem_map.1 ha
        exact (hr p hp).2
      have hnotall : n < k := by
        by_contra hc
        apply hu
        have := rates_one hle1 (by
          rw [List.length_map, hpl, hsum]; exact_mod_cast not_lt.1 hc)
        rw [allUnit, List.all_eq_true]
        intro p hp
        have := this _ (List.mem_map.2 ⟨p, hp, rfl⟩)
        simpa [Server.isUnit] using this
      -- at least three packed servers
      have hk3 : 3 ≤ k := by
        by_contra hc
        have hk2 : k = 2 := by omega
        have hn1 : n = 1 := by omega
        have hlen : (packed.map Server.rate).length = 2 := by rw [List.length_map, hpl, hk2]
        obtain ⟨a, b, hab⟩ := List.length_eq_two.1 hlen
        rw [hab] at hsum hpr
        simp at hsum hpr
        rw [hn1] at hsum
        push_cast at hsum
        linarith
      set next := duals packed with hnext
      have hnr : ∀ s ∈ next, 0 ≤ s.rate ∧ s.rate ≤ 1 := duals_range hr
      have hnt : totalRate next = ((k - n : ℕ) : ℚ) := by
        rw [hnext, totalRate_duals, hpl, hpt, ht, Nat.cast_sub hnotall.le]
      have hnp : next.Pairwise (fun a b => a.rate + b.rate < 1) := by
        rw [hnext, duals, List.pairwise_map]
        rw [List.pairwise_map] at hpr
        refine hpr.imp (fun {a b} hab => ?_)
        change (1 - a.rate) + (1 - b.rate) < 1
        linarith
      have hhalf : (findPacking next).length < k ∧ 2 * (findPacking next).length ≤ k + 1 := by
        have hnl : next.length = k := by rw [hnext, duals, List.length_map, hpl]
        by_cases h2 : 2 ≤ (findPacking next).length
        · have := pack_halves hnr hnp h2
          omega
        · omega
      obtain ⟨rounds, fin, levels, hb, hll, hrun⟩ := ih _ hhalf.1 next (init ++ [level])
        (if idTruthy nextId then nextId.map (· + packed.length) else nextId) (k - n) hnr hnt
        (by omega) rfl
      refine ⟨rounds + 1, fin, level :: levels, ?_, by simp [hll], ?_⟩
      · have hclog : Nat.clog 2 k = Nat.clog 2 ((k + 1) / 2) + 1 := by
          rw [Nat.clog_of_two_le (by norm_num) (by omega)]; rfl
        have hmono : Nat.clog 2 (findPacking next).length ≤ Nat.clog 2 ((k + 1) / 2) :=
          Nat.clog_mono_right 2 (by omega)
        have h1 : 1 ≤ Nat.clog 2 ((k + 1) / 2) := by
          have := Nat.clog_pos (b := 2) (n := (k + 1) / 2) (by norm_num) (by omega)
          omega
        have : rounds ≤ Nat.clog 2 ((k + 1) / 2) := le_trans hb (by
          apply max_le h1 hmono)
        rw [hclog]
        omega
      · intro fuel hf
        obtain ⟨f, rfl⟩ : ∃ f, fuel = f + 1 := ⟨fuel - 1, by omega⟩
        rw [reduceLoop]
        simp only [← hpk, hu]
        rw [if_neg (by simp), hrun f (by omega)]
        simp

/-- The case of a total rate of zero: one more round. -/
theorem reduceLoop_ends_zero (level : List Server) (nextId : Option ℕ)
    (hl : ∀ s ∈ level, 0 ≤ s.rate ∧ s.rate ≤ 1) (ht : totalRate level = 0) :
    ∃ packed levels, levels.length = 2 ∧ ∀ fuel, 2 ≤ fuel →
      reduceLoop fuel [] level nextId = some (packed, levels) := by
  obtain ⟨g1, g2, g3⟩ := findPacking_spec hl
  have hpt := totalRate_pack hl nextId
  have hr := pack_range hl nextId
  have hk1 : (findPacking level).length = 1 := by
    have hpos := findPacking_pos level
    by_contra hc
    have h2 : 2 ≤ ((findPacking level).map (Spec.load Server.rate)).length := by simp; omega
    have hall := two_le_of_pairs g3 h2 (by
      intro a ha
      obtain ⟨b, hb, rfl⟩ := List.mem_map.1 ha
      exact (g2 b hb).2)
    have hs : ((findPacking level).map (Spec.load Server.rate)).sum = 0 := by
      rw [← pack_rates _ nextId, ← ht, ← hpt]; rfl
    match hm : (findPacking level).map (Spec.load Server.rate) with
    | [] => rw [hm] at h2; simp at h2
    | a :: as =>
      rw [hm] at hs hall
      have h0 : 0 ≤ as.sum := List.sum_nonneg (fun x hx => (hall x (by simp [hx])).le)
      have := hall a (by simp)
      simp only [List.sum_cons] at hs
      linarith
  set packed := pack (findPacking level) nextId with hpk
  have hpl : packed.length = 1 := by rw [hpk, pack_length, hk1]
  obtain ⟨p, hp⟩ := List.length_eq_one_iff.1 hpl
  have hp0 : p.rate = 0 := by
    have : totalRate packed = 0 := by rw [hpt, ht]
    rw [hp] at this
    simpa [totalRate] using this
  have hu : ¬ allUnit packed = true := by
    rw [hp]; simp [allUnit, Server.isUnit, hp0]
  have hnr : ∀ s ∈ duals packed, 0 ≤ s.rate ∧ s.rate ≤ 1 := duals_range hr
  have hnt : totalRate (duals packed) = ((1 : ℕ) : ℚ) := by
    rw [totalRate_duals, hpl, hpt, ht]; simp
  have hnk : (findPacking (duals packed)).length ≤ 1 := by
    obtain ⟨e1, e2, e3⟩ := findPacking_spec hnr
    by_contra hc
    have h2 : 2 ≤ ((findPacking (duals packed)).map (Spec.load Server.rate)).length := by
      simp; omega
    have hpp := Binpack.pairs_bound _ e3 h2
    have hs : ((findPacking (duals packed)).map (Spec.load Server.rate)).sum = 1 := by
      rw [← pack_rates _ nextId]
      have := totalRate_pack hnr nextId
      rw [hnt] at this
      simpa [totalRate] using this
    rw [hs] at hpp
    have : (2 : ℚ) ≤ (((findPacking (duals packed)).map (Spec.load Server.rate)).length : ℚ) := by
      exact_mod_cast h2
    linarith
  obtain ⟨rounds, fin, levels, hb, hll, hrun⟩ := reduceLoop_ends _ (duals packed) ([] ++ [level])
    (if idTruthy nextId then nextId.map (· + packed.length) else nextId) 1 hnr hnt
    (by norm_num) rfl
  have hpos := findPacking_pos (duals packed)
  have hfp : (findPacking (duals packed)).length = 1 := by omega
  rw [hfp] at hb
  have hclog : Nat.clog 2 1 = 0 := Nat.clog_one_right 2
  rw [hclog] at hb
  have hr1 : rounds = 1 := by
    have h1 : 1 ≤ rounds := by
      by_contra hc
      have h0 : rounds = 0 := by omega
      have := hrun 0 (by omega)
      simp [reduceLoop] at this
    have : rounds ≤ 1 := by simpa using hb
    omega
  refine ⟨fin, level :: levels, by simp [hll, hr1], ?_⟩
  intro fuel hf
  obtain ⟨f, rfl⟩ : ∃ f, fuel = f + 1 := ⟨fuel - 1, by omega⟩
  rw [reduceLoop]
  simp only [← hpk, hu]
  rw [if_neg (by simp), hrun f (by omega)]
  simp

theorem findPacking_le {level : List Server} (h : ∀ s ∈ level, 0 ≤ s.rate ∧ s.rate ≤ 1)
    (h2 : 2 ≤ (findPacking level).length) : (findPacking level).length ≤ level.length := by
  obtain ⟨g1, g2, g3⟩ := findPacking_spec h
  have hpos := two_le_of_pairs g3 (by simpa using h2) (by
    intro a ha
    obtain ⟨b, hb, rfl⟩ := List.mem_map.1 ha
    exact (g2 b hb).2)
  have hlen : ∀ b ∈ findPacking level, 1 ≤ b.length := by
    intro b hb
    have := hpos _ (List.mem_map.2 ⟨b, hb, rfl⟩)
    rcases b with _ | ⟨x, xs⟩
    · simp [Spec.load] at this
    · simp
  rw [← g1.length_eq]
  generalize findPacking level = bins at hlen
  clear * - hlen
  induction bins with
  | nil => simp
  | cons b bs ih =>
    have := hlen b (by simp)
    have := ih (fun c hc => hlen c (by simp [hc]))
    simp only [List.length_cons, List.flatten_cons, List.length_append]
    omega

/-! ### C42 -/

/-- C42: `ensure_integer_rate` keeps the servers, adds at most one server of
rate below one, and the total rate becomes the next integer. -/
theorem C42_ensure_integer_rate (servers : List Server) :
    ((ensureIntegerRate servers).map Server.rate).sum
      = (⌈(servers.map Server.rate).sum⌉ : ℤ) ∧
    (ensureIntegerRate servers = servers ∨
      ∃ slack : Server, ensureIntegerRate servers = servers ++ [slack] ∧
        0 < slack.rate ∧ slack.rate < 1 ∧ slack.deadlines = ∅ ∧ slack.clients = []) := by
  refine ⟨ensure_total servers, ?_⟩
  unfold ensureIntegerRate
  simp only
  split_ifs with h
  · right
    refine ⟨_, rfl, ?_, ?_, rfl, rfl⟩
    · have := lt_of_le_of_ne (Int.le_ceil (totalRate servers)) (Ne.symm h)
      simp only [Server.rate]; linarith
    · have := Int.ceil_lt_add_one (totalRate servers)
      simp only [Server.rate]; linarith
  · left; rfl

/-- C42: whatever `reduce` returns for servers with rates in [0, 1] is a
finished reduction of the given servers plus the slack server. -/
theorem C42_reduction (servers : List Server) (nextId : Option ℕ)
    (h : ∀ s ∈ servers, 0 ≤ s.rate ∧ s.rate ≤ 1) (fuel : ℕ)
    (packed : List Server) (levels : List (List Server))
    (hr : reduce fuel servers nextId = some (packed, levels)) :
    Reduces (ensureIntegerRate servers) packed levels := by
  obtain ⟨ls, h1, h2⟩ := reduceLoop_spec fuel [] _ _ _ (ensure_range h) hr
  simp only [List.nil_append] at h1
  rw [h1]; exact h2

/-- C42: `reduce` always ends.  With `n` servers (including slack) there are
at most `max 2 ⌈log₂ n⌉` levels. -/
theorem C42_terminates (servers : List Server) (nextId : Option ℕ)
    (h : ∀ s ∈ servers, 0 ≤ s.rate ∧ s.rate ≤ 1) :
    ∃ packed levels, levels.length ≤ max 2 (Nat.clog 2 (ensureIntegerRate servers).length) ∧
      ∀ fuel, max 2 (Nat.clog 2 (ensureIntegerRate servers).length) ≤ fuel →
        reduce fuel servers nextId = some (packed, levels) := by
  have hr := ensure_range h
  have ht := ensure_total servers
  have h0 := totalRate_nonneg h
  obtain ⟨n, hn⟩ : ∃ n : ℕ, ⌈totalRate servers⌉ = (n : ℤ) :=
    Int.eq_ofNat_of_zero_le (Int.ceil_nonneg h0)
  rw [hn] at ht
  push_cast at ht
  rcases Nat.eq_zero_or_pos n with rfl | hpos
  · obtain ⟨packed, levels, h1, h2⟩ := reduceLoop_ends_zero (ensureIntegerRate servers) nextId hr
      (by simpa using ht)
    exact ⟨packed, levels, by omega, fun fuel hf => h2 fuel (by omega)⟩
  · obtain ⟨rounds, packed, levels, h1, h2, h3⟩ := reduceLoop_ends _ (ensureIntegerRate servers) []
      nextId n hr ht hpos rfl
    have hb : rounds ≤ max 2 (Nat.clog 2 (ensureIntegerRate servers).length) := by
      by_cases hk : 2 ≤ (findPacking (ensureIntegerRate servers)).length
      · have := Nat.clog_mono_right 2 (findPacking_le hr hk)
        omega
      · have : Nat.clog 2 (findPacking (ensureIntegerRate servers)).length = 0 :=
          Nat.clog_of_right_le_one (by omega) 2
        omega
    exact ⟨packed, levels, by omega, fun fuel hf => by
      have := h3 fuel (by omega)
      simpa [reduce] using this⟩

theorem Groups.total {packed level : List Server} (h : Groups packed level) :
    (packed.map Server.rate).sum = (level.map Server.rate).sum := by
  rw [← (h.clients.map Server.rate).sum_eq, List.map_flatten, List.sum_flatten, List.map_map,
    List.map_map]
  congr 1
  apply List.map_congr_left
  intro p hp
  exact h.rate p hp

theorem Duals.total {level packed : List Server} (h : Duals level packed) :
    (level.map Server.rate).sum = packed.length - (packed.map Server.rate).sum := by
  unfold Duals at h
  induction h with
  | nil => simp
  | cons h _ ih =>
    simp only [List.map_cons, List.sum_cons, List.length_cons, Nat.cast_add, Nat.cast_one]
    rw [ih, h.1]; ring

theorem Groups.count {packed level : List Server} (h : Groups packed level)
    (running : Server → Bool) (hc : ∀ p ∈ packed, p.clients.countP running
      = if running p then 1 else 0) : level.countP running = packed.countP running := by
  rw [← h.clients.countP_eq, List.countP_flatten, List.map_map]
  clear h
  induction packed with
  | nil => simp
  | cons p ps ih =>
    rw [List.map_cons, List.sum_cons, ih (fun q hq => hc q (by simp [hq])), List.countP_cons]
    have := hc p (by simp)
    simp only [Function.comp]
    rw [this]; omega

theorem Duals.count {level packed : List Server} (h : Duals level packed)
    (running : Server → Bool)
    (hd : ∀ d ∈ level, ∀ p, d.createdFrom = some p → running d = !running p) :
    level.countP running + packed.countP running = packed.length := by
  unfold Duals at h
  induction h with
  | nil => simp
  | @cons d p ds ps h _ ih =>
    have := ih (fun e he => hd e (by simp [he]))
    have hd := hd d (by simp) p h.2.1
    rw [List.countP_cons, List.countP_cons, hd, List.length_cons]
    cases running p <;> simp <;> omega

/-- C42: every level of a finished reduction has an integral total rate. -/
theorem C42_integral {level packed : List Server} {levels : List (List Server)}
    (h : Reduces level packed levels) :
    ∀ l ∈ levels, ∃ n : ℤ, (l.map Server.rate).sum = n := by
  have key : ∀ {level packed : List Server} {levels : List (List Server)},
      Reduces level packed levels → (∃ n : ℤ, (level.map Server.rate).sum = n) ∧
        ∀ l ∈ levels, ∃ n : ℤ, (l.map Server.rate).sum = n := by
    intro level packed levels h
    induction h with
    | @done level packed hg hu =>
      have : ∃ n : ℤ, (level.map Server.rate).sum = n := by
        refine ⟨packed.length, ?_⟩
        rw [← hg.total]
        clear hg
        induction packed with
        | nil => simp
        | cons p ps ih =>
          rw [List.map_cons, List.sum_cons, hu p (by simp), ih (fun q hq => hu q (by simp [hq]))]
          push_cast [List.length_cons]; ring
      exact ⟨this, by simpa using this⟩
    | @step level packed next final levels hg hd _ ih =>
      have : ∃ n : ℤ, (level.map Server.rate).sum = n := by
        obtain ⟨n, hn⟩ := ih.1
        refine ⟨packed.length - n, ?_⟩
        rw [← hg.total]
        have := hd.total
        rw [hn] at this
        push_cast; linarith
      refine ⟨this, ?_⟩
      intro l hl
      rcases List.mem_cons.1 hl with rfl | hl
      · exact this
      · exact ih.2 l hl
  exact (key h).2

/-- C42: at every instant of a schedule that follows the tree, the number of
running servers of the first level equals their total rate: the number of
processors is used exactly. -/
theorem C42_instant {level packed : List Server} {levels : List (List Server)}
    (h : Reduces level packed levels) (running : Server → Bool)
    (hi : Instant running packed levels) :
    (level.countP running : ℚ) = (level.map Server.rate).sum := by
  induction h with
  | @done level packed hg hu =>
    rw [hg.count running (by
      intro p hp
      rw [hi.final_running p hp, hi.final_client p hp]; simp)]
    rw [← hg.total]
    have hrun := hi.final_running
    clear hg hi
    induction packed with
    | nil => simp
    | cons p ps ih =>
      rw [List.map_cons, List.sum_cons, hu p (by simp), List.countP_cons, hrun p (by simp)]
      have := ih (fun q hq => hu q (by simp [hq])) (fun q hq => hrun q (by simp [hq]))
      push_cast
      rw [this]; simp; ring
  | @step level packed next final levels hg hd hred ih =>
    have hhead : ∃ rest, levels = next :: rest := by cases hred <;> exact ⟨_, rfl⟩
    obtain ⟨rest, rfl⟩ := hhead
    have hsub : Instant running final (next :: rest) :=
      ⟨hi.final_running, hi.final_client,
        fun l hl => hi.dual l (by simp only [List.tail_cons] at hl ⊢; simp [hl]),
        fun l hl => hi.client l (by simp only [List.tail_cons] at hl ⊢; simp [hl])⟩
    have ih := ih hsub
    have hdual := hi.dual next (by simp)
    have hcl := hi.client next (by simp)
    have hc : ∀ p ∈ packed, p.clients.countP running = if running p then 1 else 0 := by
      intro p hp
      have : ∃ d ∈ next, d.createdFrom = some p := by
        clear * - hd hp
        unfold Duals at hd
        induction hd with
        | nil => simp at hp
        | cons h _ ih =>
          rcases List.mem_cons.1 hp with rfl | hp
          · exact ⟨_, by simp, h.2.1⟩
          · obtain ⟨d, h1, h2⟩ := ih hp
            exact ⟨d, by simp [h1], h2⟩
      obtain ⟨d, h1, h2⟩ := this
      exact hcl d h1 p h2
    rw [hg.count running hc, ← hg.total]
    have h1 := hd.count running hdual
    have h2 := hd.total
    have h1' : (next.countP running : ℚ) + packed.countP running = packed.length := by
      exact_mod_cast h1
    linarith

/-! ### The hypotheses can be met -/

/-- A server of the given rate and name, as a user creates it. -/
def user (rate : ℚ) (name : ℕ) : Server := .mk rate {(name : ℚ)} [] (some (.num name)) none

/-- Five servers of rate 3/5 need three levels (the bound of
`C42_terminates`). -/
example : (reduce 3 ((List.range 5).map (user (3/5))) none).map
    (fun r => (r.1.map Server.rate, r.2.map (·.map Server.rate)))
    = some ([1], [[3/5, 3/5, 3/5, 3/5, 3/5], [2/5, 2/5, 2/5, 2/5, 2/5], [1/5, 1/5, 3/5]]) := by
  decide +kernel

/-- A slack server is added where needed. -/
example : (reduce 3 ((List.range 3).map (user (1/2))) (some 7)).map
    (fun r => (r.1.map Server.id, r.2.map (·.map Server.rate)))
    = some ([some (.num 7), some (.num 8)], [[1/2, 1/2, 1/2, 1/2]]) := by
  decide +kernel

/-- Three servers of rate 2/3 on two processors. -/
def three : List Server := (List.range 3).map (user (2/3))

/-- An instant at which server 0 waits and servers 1 and 2 run. -/
def runs (s : Server) : Bool :=
  match s.createdFrom with
  | some p => p.clients.any (fun c => c.id = some (.num 0))
  | none => match s.clients with
    | [] => s.id ≠ some (.num 0)
    | [c] => c.id ≠ some (.num 0)
    | _ => true

example : ∃ packed levels, reduce 2 three none = some (packed, levels) ∧
    Instant runs packed levels ∧ levels.length = 2 ∧ three.countP runs = 2 := by
  have h : (reduce 2 three none).isSome = true := by decide +kernel
  obtain ⟨r, hr⟩ := Option.isSome_iff_exists.1 h
  have e1 : ∀ (P : Server → Bool), (reduce 2 three none).all (fun r => r.1.all P) = true →
      ∀ p ∈ r.1, P p = true := by
    intro P hP; rw [hr] at hP; simpa using hP
  have e2 : ∀ (P : Server → Bool),
      (reduce 2 three none).all (fun r => r.2.tail.all (fun l => l.all P)) = true →
      ∀ l ∈ r.2.tail, ∀ d ∈ l, P d = true := by
    intro P hP; rw [hr] at hP
    simpa only [Option.all_some, List.all_eq_true] using hP
  refine ⟨r.1, r.2, hr, ⟨?_, ?_, ?_, ?_⟩, ?_, by decide +kernel⟩
  · exact e1 runs (by decide +kernel)
  · intro p hp
    have := e1 (fun p => decide (p.clients.countP runs = 1)) (by decide +kernel) p hp
    simpa using this
  · intro l hl d hd p hp
    have := e2 (fun d => match d.createdFrom with
      | some p => runs d == !runs p
      | none => true) (by decide +kernel) l hl d hd
    rw [hp] at this
    simpa using this
  · intro l hl d hd p hp
    have := e2 (fun d => match d.createdFrom with
      | some p => p.clients.countP runs == if runs p then 1 else 0
      | none => true) (by decide +kernel) l hl d hd
    rw [hp] at this
    simpa using this
  · have : (reduce 2 three none).all (fun r => r.2.length == 2) = true := by decide +kernel
    rw [hr] at this
    simpa using this

/-- **C42**: the reported bound on preemptions is half the number of levels,
rounded up. -/
theorem C42_max_preemptions (levels : List (List Server)) :
    levels.length ≤ 2 * maxPreemptions levels ∧ 2 * maxPreemptions levels ≤ levels.length + 1 := by
  unfold maxPreemptions
  have h1 := Int.le_ceil ((levels.length : ℚ) / 2)
  have h2 := Int.ceil_lt_add_one ((levels.length : ℚ) / 2)
  set c : ℤ := ⌈(levels.length : ℚ) / 2⌉
  have h3 : (levels.length : ℚ) ≤ ((2 * c : ℤ) : ℚ) := by push_cast; linarith
  have h4 : ((2 * c : ℤ) : ℚ) < (((levels.length : ℤ) + 2 : ℤ) : ℚ) := by push_cast; linarith
  have h5 : (levels.length : ℤ) ≤ 2 * c := by exact_mod_cast h3
  have h6 : 2 * c < (levels.length : ℤ) + 2 := by exact_mod_cast h4
  omega

end Verif.Run
