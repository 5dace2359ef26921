/-
Nested critical sections (C110–C112).
-/
import Verif.Lemmas.NestedCs
import Mathlib.Data.Finset.Lattice.Fold

namespace Verif.Nested
open Relation

/-- C110. For all tasks built with `add`, if no resource can be requested again while it
is held, then the nesting relation has an entry for every requested resource, and the
entry of `q` consists of exactly the resources that may be requested while `q` is held,
directly or through further nested requests.  This holds for every order of iteration
over the hash maps and hash sets. -/
theorem C110_nesting_exact (tsks : List TaskCs) (hb : ∀ t ∈ tsks, Built t)
    (acyclic : ∀ q, ¬ MayRequest tsks q q)
    (en : Enum) (hen : ∀ (s : Finset ℕ) r, r ∈ en s ↔ r ∈ s)
    (order : List ℕ) (hord : ∀ q, q ∈ order ↔ Requested tsks q) :
    ∃ N, ∀ n ≥ N, ∃ m, transNested en order n tsks = some m ∧
      (∀ q, (m q).isSome ↔ Requested tsks q) ∧
      ∀ q s, m q = some s → ∀ r, r ∈ s ↔ MayRequest tsks q r := by
  obtain ⟨d, hd, hok⟩ := directlyNested_spec hb
  refine ⟨order.toFinset.card, fun n hn => ?_⟩
  have hK : ∀ q, q ∈ order.toFinset ↔ Requested tsks q := by
    intro q; rw [List.mem_toFinset]; exact hord q
  have hB : BuildOk en d (RequestsWithin tsks) order.toFinset n := by
    apply build_spec acyclic _ _ hen
    · intro q hq r
      obtain ⟨s, hs⟩ := Option.isSome_iff_exists.mp ((hok.keys q).mpr ((hK q).mp hq))
      rw [hs]
      exact hok.mem q s hs r
    · rintro q r ⟨t, ht, i, j, c, p, hi, _, _, _, rfl⟩
      exact (hK _).mpr ⟨t, ht, c, List.mem_of_getElem? hi, rfl⟩
  obtain ⟨m, hm, hf, _, hsome, hdom⟩ := order_spec n hB order (fun _ => none)
    (fun q hq => by simpa using hq)
    (le_trans (Finset.card_le_card (Finset.filter_subset _ _)) hn)
    (by intro q s h; simp at h)
  refine ⟨m, ?_, ?_, ?_⟩
  · simp only [transNested, hd]
    exact hm
  · intro q
    constructor
    · intro h
      rcases hdom q h with h | h
      · simp at h
      · exact (hK q).mp h
    · exact fun h => hsome q ((hord q).mpr h)
  · intro q s hs r
    exact hf q s hs (by simp) r

/-- Iteration over a hash set in increasing order. -/
def increasing : Enum := fun s => (List.range (s.sup id + 1)).filter (· ∈ s)

theorem mem_increasing (s : Finset ℕ) (r : ℕ) : r ∈ increasing s ↔ r ∈ s := by
  simp only [increasing, List.mem_filter, List.mem_range, decide_eq_true_eq,
    and_iff_right_iff_imp]
  intro h
  have : id r ≤ s.sup id := Finset.le_sup h
  simp only [id] at this
  exact Nat.lt_succ_of_le this

/-- Two tasks: the first requests resource 1 inside resource 0, the second requests
resource 2 inside resource 1. -/
def chainTasks : List TaskCs :=
  [[⟨0, 5, none⟩, ⟨1, 2, some 0⟩], [⟨3, 1, none⟩, ⟨1, 4, none⟩, ⟨2, 1, some 1⟩]]

theorem built_of_outer {cs : TaskCs} : ∀ (post pre : List CritSec), Built pre →
    pre ++ post = cs →
    (∀ (i : ℕ) (c : CritSec) (j : ℕ), cs[i]? = some c → c.outer = some j → j < i) →
    Built cs := by
  intro post
  induction post with
  | nil => intro pre hp h _; simp only [List.append_nil] at h; rw [← h]; exact hp
  | cons c post ih =>
    intro pre hp h hlt
    refine ih (pre ++ [c]) ?_ (by simpa using h) hlt
    have hi : cs[pre.length]? = some c := by rw [← h]; simp
    rcases c with ⟨r, l, o⟩
    cases o with
    | none => exact .add (res := r) (len := l) (outer := none) hp rfl
    | some o =>
      have := hlt _ _ o hi rfl
      exact .add (res := r) (len := l) (outer := some o) hp (by simp [add, this])

theorem built_iff (cs : TaskCs) :
    Built cs ↔ ∀ (i : ℕ) (c : CritSec) (j : ℕ), cs[i]? = some c → c.outer = some j → j < i :=
  ⟨fun h => h.outer_lt, fun h => built_of_outer cs [] .nil rfl h⟩

theorem chain_built : ∀ t ∈ chainTasks, Built t := by
  intro t ht
  have h1 : Built [⟨0, 5, none⟩, ⟨1, 2, some 0⟩] :=
    .add (res := 1) (len := 2) (outer := some 0)
      (.add (res := 0) (len := 5) (outer := none) .nil rfl) rfl
  have h2 : Built [⟨3, 1, none⟩, ⟨1, 4, none⟩, ⟨2, 1, some 1⟩] :=
    .add (res := 2) (len := 1) (outer := some 1)
      (.add (res := 1) (len := 4) (outer := none)
        (.add (res := 3) (len := 1) (outer := none) .nil rfl) rfl) rfl
  simp only [chainTasks, List.mem_cons, List.not_mem_nil, or_false] at ht
  rcases ht with rfl | rfl
  · exact h1
  · exact h2

theorem requestsWithin_mem {tsks : List TaskCs} {q r : ℕ} (h : RequestsWithin tsks q r) :
    ∃ t ∈ tsks, ∃ c ∈ t, ∃ p ∈ t, (∃ o, c.outer = some o ∧ t[o]? = some p) ∧ p.res = q ∧
      c.res = r := by
  obtain ⟨t, ht, i, j, c, p, hi, hj, hp, hq, hr⟩ := h
  exact ⟨t, ht, c, List.mem_of_getElem? hi, p, List.mem_of_getElem? hp, ⟨j, hj, hp⟩, hq, hr⟩

theorem chain_within {q r : ℕ} (h : RequestsWithin chainTasks q r) :
    (q = 0 ∧ r = 1) ∨ (q = 1 ∧ r = 2) := by
  obtain ⟨t, ht, c, hc, p, _, ⟨o, ho, hp⟩, rfl, rfl⟩ := requestsWithin_mem h
  simp only [chainTasks, List.mem_cons, List.not_mem_nil, or_false] at ht
  rcases ht with rfl | rfl
  · simp only [List.mem_cons, List.not_mem_nil, or_false] at hc
    rcases hc with rfl | rfl
    · simp at ho
    · simp only [Option.some.injEq] at ho
      subst ho
      simp at hp
      subst hp
      simp
  · simp only [List.mem_cons, List.not_mem_nil, or_false] at hc
    rcases hc with rfl | rfl | rfl
    · simp at ho
    · simp at ho
    · simp only [Option.some.injEq] at ho
      subst ho
      simp at hp
      subst hp
      simp

theorem chain_lt {q r : ℕ} (h : MayRequest chainTasks q r) : q < r := by
  induction h with
  | single h => rcases chain_within h with ⟨rfl, rfl⟩ | ⟨rfl, rfl⟩ <;> omega
  | tail _ h ih => rcases chain_within h with ⟨rfl, rfl⟩ | ⟨rfl, rfl⟩ <;> omega

/-- The hypotheses of `C110_nesting_exact` hold for two tasks with a chain of nested
requests, and the chain is long enough that the relation is not just the direct one. -/
example : (∀ t ∈ chainTasks, Built t) ∧ (∀ q, ¬ MayRequest chainTasks q q) ∧
    MayRequest chainTasks 0 2 ∧ ¬ RequestsWithin chainTasks 0 2 := by
  refine ⟨chain_built, fun q h => by have := chain_lt h; omega, ?_, ?_⟩
  · refine .tail (.single (b := 1) ?_) ?_
    · exact ⟨_, by simp [chainTasks]; left; rfl, 1, 0, ⟨1, 2, some 0⟩, ⟨0, 5, none⟩, rfl, rfl,
        rfl, rfl, rfl⟩
    · exact ⟨_, by simp [chainTasks]; right; rfl, 2, 1, ⟨2, 1, some 1⟩, ⟨1, 4, none⟩, rfl, rfl,
        rfl, rfl, rfl⟩
  · intro h
    rcases chain_within h with ⟨_, h⟩ | ⟨h, _⟩ <;> omega

example : ((transNested increasing [3, 1, 0, 2] 4 chainTasks).map
    fun m => [m 0, m 1, m 2, m 3, m 4]) =
    some [some {1, 2}, some {2}, some ∅, some ∅, none] := by decide +kernel

/-- Two tasks that nest resources 0 and 1 in opposite orders. -/
def cycleTasks : List TaskCs :=
  [[⟨0, 1, none⟩, ⟨1, 1, some 0⟩], [⟨1, 1, none⟩, ⟨0, 1, some 0⟩]]

/-- The restriction to nesting without cycles in C110 is needed: with a cycle, the
entry of a resource may lack resources that can be requested while it is held. -/
theorem C110_cycle_incomplete :
    MayRequest cycleTasks 1 1 ∧
    ((transNested increasing [0, 1] 2 cycleTasks).map fun m => [m 0, m 1]) =
      some [some {0, 1}, some {0}] := by
  refine ⟨?_, by decide +kernel⟩
  refine .tail (.single (b := 0) ?_) ?_
  · exact ⟨_, by simp [cycleTasks]; right; rfl, 1, 0, ⟨0, 1, some 0⟩, ⟨1, 1, none⟩, rfl, rfl,
      rfl, rfl, rfl⟩
  · exact ⟨_, by simp [cycleTasks]; left; rfl, 1, 0, ⟨1, 1, some 0⟩, ⟨0, 1, none⟩, rfl, rfl,
      rfl, rfl, rfl⟩

/-! ### C111: containing critical sections -/

/-- C111 (a). `get_outer_locks` of a critical section ends and returns exactly the
resources held due to the critical sections that contain it. -/
theorem C111_outer_locks_exact (cs : TaskCs) (hb : Built cs) (i : ℕ) (c : CritSec)
    (hi : cs[i]? = some c) :
    ∃ l, outerLocks c cs = some l ∧ ∀ q, q ∈ l ↔ HeldAround cs i q := by
  obtain ⟨l, hl, hmem⟩ := outerLoop_spec hb cs.length c.outer [] (outer_lt_length hb hi) le_rfl
  exact ⟨l, by simpa [outerLocks] using hl, fun q => (hmem q).trans (heldAround_iff hi q).symm⟩

/-- C111 (b). `has_nested_requests` holds exactly if some critical section is contained
directly in the given one. -/
theorem C111_has_nested_exact (cs : TaskCs) (hb : Built cs) (i : ℕ) :
    hasNestedRequests cs i = true ↔ ∃ k, Inside cs k i := by
  unfold hasNestedRequests
  rw [List.any_eq_true]
  constructor
  · rintro ⟨c, hc, ho⟩
    obtain ⟨k, hk⟩ := List.getElem?_of_mem hc
    rw [List.getElem?_drop] at hk
    exact ⟨_, c, hk, by simpa using ho⟩
  · rintro ⟨k, c, hk, ho⟩
    have hlt := hb.outer_lt k c i hk ho
    refine ⟨c, List.mem_of_getElem? (i := k - (i + 1)) ?_, by simpa using ho⟩
    rw [List.getElem?_drop, show i + 1 + (k - (i + 1)) = k by omega]
    exact hk

/-- C111 (c). `get_outermost` ends; its result contains the given critical section (or
is that section) and is not contained in another one. -/
theorem C111_outermost_exact (cs : TaskCs) (hb : Built cs) (i : ℕ) (hi : i < cs.length) :
    ∃ r, outermost cs cs.length i = some r ∧ ReflTransGen (Inside cs) i r ∧
      ∀ j, ¬ Inside cs r j := by
  obtain ⟨r, c, hr, hir, hc, ho⟩ := outermost_spec hb cs.length i hi le_rfl
  refine ⟨r, hr, hir, ?_⟩
  rintro j ⟨c', hc', ho'⟩
  rw [hc] at hc'
  obtain rfl := Option.some.inj hc'
  rw [ho] at ho'
  simp at ho'

/-- Three nested critical sections and an unrelated one. -/
def deepTask : TaskCs := [⟨4, 9, none⟩, ⟨7, 3, none⟩, ⟨5, 6, some 0⟩, ⟨6, 2, some 2⟩]

theorem deep_built : Built deepTask :=
  .add (res := 6) (len := 2) (outer := some 2)
    (.add (res := 5) (len := 6) (outer := some 0)
      (.add (res := 7) (len := 3) (outer := none)
        (.add (res := 4) (len := 9) (outer := none) .nil rfl) rfl) rfl) rfl

example : Built deepTask ∧ deepTask[3]? = some ⟨6, 2, some 2⟩ ∧
    outerLocks ⟨6, 2, some 2⟩ deepTask = some [5, 4] ∧ outermost deepTask 4 3 = some 0 ∧
    hasNestedRequests deepTask 2 = true ∧ hasNestedRequests deepTask 3 = false :=
  ⟨deep_built, by decide, by decide, by decide, by decide, by decide⟩

/-! ### C112: common outer locks -/

/-- C112, as intended. `has_common_outer` holds exactly if some resource is held around
both critical sections. -/
def CommonOuterExact : Prop :=
  ∀ (this other : TaskCs), Built this → Built other →
    ∀ (i k : ℕ) (c o : CritSec), this[i]? = some c → other[k]? = some o →
      ∃ b, hasCommonOuter c this o other = some b ∧
        (b = true ↔ ∃ q, HeldAround this i q ∧ HeldAround other k q)

/-- C112 is violated, part 1: both critical sections are requested while resource 1 is
held, but `has_common_outer` denies this. -/
theorem C112_common_outer_missed :
    ∃ (this other : TaskCs) (i k : ℕ) (c o : CritSec), Built this ∧ Built other ∧
      this[i]? = some c ∧ other[k]? = some o ∧ HeldAround this i 1 ∧ HeldAround other k 1 ∧
      hasCommonOuter c this o other = some false := by
  refine ⟨[⟨0, 1, none⟩, ⟨1, 5, none⟩, ⟨2, 1, some 1⟩], [⟨1, 5, none⟩, ⟨3, 1, some 0⟩], 2, 1,
    ⟨2, 1, some 1⟩, ⟨3, 1, some 0⟩, ?_, ?_, rfl, rfl, ?_, ?_, by decide⟩
  · exact .add (res := 2) (len := 1) (outer := some 1)
      (.add (res := 1) (len := 5) (outer := none)
        (.add (res := 0) (len := 1) (outer := none) .nil rfl) rfl) rfl
  · exact .add (res := 3) (len := 1) (outer := some 0)
      (.add (res := 1) (len := 5) (outer := none) .nil rfl) rfl
  · exact ⟨1, ⟨1, 5, none⟩, .single ⟨_, rfl, rfl⟩, rfl, rfl⟩
  · exact ⟨0, ⟨1, 5, none⟩, .single ⟨_, rfl, rfl⟩, rfl, rfl⟩

/-- C112 is violated, part 2: no resource is held around both critical sections, but
`has_common_outer` claims so.  Both belong to the same task. -/
theorem C112_common_outer_invented :
    ∃ (this : TaskCs) (i k : ℕ) (c o : CritSec), Built this ∧
      this[i]? = some c ∧ this[k]? = some o ∧
      (∀ q, ¬ (HeldAround this i q ∧ HeldAround this k q)) ∧
      hasCommonOuter c this o this = some true := by
  have hb : Built [⟨0, 5, none⟩, ⟨2, 1, some 0⟩, ⟨1, 5, none⟩, ⟨3, 1, some 2⟩] :=
    .add (res := 3) (len := 1) (outer := some 2)
      (.add (res := 1) (len := 5) (outer := none)
        (.add (res := 2) (len := 1) (outer := some 0)
          (.add (res := 0) (len := 5) (outer := none) .nil rfl) rfl) rfl) rfl
  refine ⟨_, 1, 3, ⟨2, 1, some 0⟩, ⟨3, 1, some 2⟩, hb, rfl, rfl, ?_, by decide⟩
  rintro q ⟨h1, h3⟩
  obtain ⟨l1, hl1, hm1⟩ := C111_outer_locks_exact _ hb 1 _ rfl
  obtain ⟨l3, hl3, hm3⟩ := C111_outer_locks_exact _ hb 3 _ rfl
  have e1 : l1 = [0] := (Option.some.inj (hl1.symm.trans (by decide)))
  have e3 : l3 = [1] := (Option.some.inj (hl3.symm.trans (by decide)))
  have m1 := (hm1 q).mpr h1
  have m3 := (hm3 q).mpr h3
  rw [e1] at m1
  rw [e3] at m3
  simp only [List.mem_singleton] at m1 m3
  omega

/-- C112 is violated, part 3: the call may read past the end of the list of critical
sections. -/
theorem C112_common_outer_undefined :
    ∃ (this other : TaskCs) (i k : ℕ) (c o : CritSec), Built this ∧ Built other ∧
      this[i]? = some c ∧ other[k]? = some o ∧ hasCommonOuter c this o other = none := by
  refine ⟨[⟨1, 5, none⟩, ⟨3, 1, some 0⟩], [⟨0, 1, none⟩, ⟨0, 1, none⟩, ⟨1, 5, none⟩,
    ⟨2, 1, some 2⟩], 1, 3, ⟨3, 1, some 0⟩, ⟨2, 1, some 2⟩, ?_, ?_, rfl, rfl, by decide⟩
  · exact .add (res := 3) (len := 1) (outer := some 0)
      (.add (res := 1) (len := 5) (outer := none) .nil rfl) rfl
  · exact .add (res := 2) (len := 1) (outer := some 2)
      (.add (res := 1) (len := 5) (outer := none)
        (.add (res := 0) (len := 1) (outer := none)
          (.add (res := 0) (len := 1) (outer := none) .nil rfl) rfl) rfl) rfl

theorem C112_common_outer_violated : ¬ CommonOuterExact := by
  intro h
  obtain ⟨this, other, i, k, c, o, hb, hb', hi, hk, h1, h2, hf⟩ := C112_common_outer_missed
  obtain ⟨b, hb1, hiff⟩ := h this other hb hb' i k c o hi hk
  rw [hf] at hb1
  obtain rfl := Option.some.inj hb1
  have := hiff.mpr ⟨1, h1, h2⟩
  simp at this

/-- C112, the part that holds: the version of `has_common_outer` that is given the set of
locks held by the other task is exact.  Applied to this critical section (instead of the
other one) and the outer locks of the other, it decides the intended question. -/
theorem C112_common_outer_partial (this other : TaskCs) (hb : Built this) (hb' : Built other)
    (i k : ℕ) (c o : CritSec) (hi : this[i]? = some c) (hk : other[k]? = some o) :
    ∃ held b, outerLocks o other = some held ∧ hasCommonWith c this held = some b ∧
      (b = true ↔ ∃ q, HeldAround this i q ∧ HeldAround other k q) := by
  obtain ⟨held, hheld, hmem⟩ := C111_outer_locks_exact other hb' k o hk
  obtain ⟨b, hb1, hiff⟩ := commonLoop_spec hb held this.length c.outer
    (outer_lt_length hb hi) le_rfl
  refine ⟨held, b, hheld, hb1, hiff.trans ?_⟩
  constructor
  · rintro ⟨x, j, d, hx, hxj, hd, hq⟩
    exact ⟨d.res, (heldAround_iff hi _).mpr ⟨x, j, d, hx, hxj, hd, rfl⟩, (hmem _).mp hq⟩
  · rintro ⟨q, h1, h2⟩
    obtain ⟨x, j, d, hx, hxj, hd, rfl⟩ := (heldAround_iff hi q).mp h1
    exact ⟨x, j, d, hx, hxj, hd, (hmem _).mpr h2⟩

/-- C112, a further part that holds: if one of the two critical sections is outermost,
the answer is right. -/
theorem C112_outermost_partial (this other : TaskCs) (hb : Built this) (hb' : Built other)
    (i k : ℕ) (c o : CritSec) (hi : this[i]? = some c) (hk : other[k]? = some o)
    (h : (∀ j, ¬ Inside this i j) ∨ (∀ j, ¬ Inside other k j)) :
    hasCommonOuter c this o other = some false ∧
      ¬ ∃ q, HeldAround this i q ∧ HeldAround other k q := by
  constructor
  · unfold hasCommonOuter CritSec.isOutermost
    have hn : (c.outer.isNone || o.outer.isNone) = true := by
      rcases h with h | h
      · cases hc : c.outer with
        | none => rfl
        | some x => exact absurd ⟨c, hi, hc⟩ (h x)
      · cases hc : o.outer with
        | none => simp
        | some x => exact absurd ⟨o, hk, hc⟩ (h x)
    rw [if_pos hn]
  · rintro ⟨q, ⟨j, _, h1, _⟩, ⟨j', _, h2, _⟩⟩
    rcases h with h | h
    · obtain ⟨x, hx, _⟩ := TransGen.head'_iff.mp h1
      exact h x hx
    · obtain ⟨x, hx, _⟩ := TransGen.head'_iff.mp h2
      exact h x hx

example : hasCommonWith ⟨2, 1, some 1⟩ [⟨0, 1, none⟩, ⟨1, 5, none⟩, ⟨2, 1, some 1⟩] [1] =
    some true := by decide

end Verif.Nested
