/-
C39: `bound_blocking` returns the largest total length of any admissible selection of
conflicting requests.
-/
import Verif.Model.SharedRes
import Mathlib.Algebra.Order.Floor.Div
import Mathlib.Tactic.Linarith
import Mathlib.Tactic.Ring

namespace Verif.SR

/-! ### Specification -/

/-- The total length of a selection: `xs` lists the number of requests taken of each
member of the contention set. -/
def volume (xs : List ℕ) (cont : List RB) : ℕ := (List.zipWith (fun x r => x * r.req.length) xs cont).sum

/-- A selection respects the limits: of each source at most as many requests as its jobs
can issue (jobs released every `period` time units, each pending for at most `response`),
at most `perSource`, none of excluded sources, and at most `maxTotal` overall. -/
structure Admissible (cont : List RB) (interval maxTotal perSource : ℕ) (excluded : RB → Prop)
    (xs : List ℕ) : Prop where
  len : xs.length = cont.length
  total : xs.sum ≤ maxTotal
  source : ∀ p ∈ List.zip xs cont, p.1 ≤ perSource
  jobs : ∀ p ∈ List.zip xs cont, p.1 ≤ ((interval + p.2.info.response) ⌈/⌉ p.2.info.period) * p.2.req.num
  excl : ∀ p ∈ List.zip xs cont, excluded p.2 → p.1 = 0

/-- Longest requests first. -/
def LongestFirst (cont : List RB) : Prop := cont.Pairwise (fun a b => b.req.length ≤ a.req.length)

/-! ### Proof -/

theorem divideWithCeil_eq {a b : ℕ} (hb : 0 < b) : Native.divideWithCeil a b = a ⌈/⌉ b := by
  unfold Native.divideWithCeil
  rw [Nat.ceilDiv_eq_add_pred_div]
  have h := Nat.div_add_mod a b
  have hlt := Nat.mod_lt a hb
  by_cases h0 : a % b = 0
  · rw [if_pos h0]
    symm
    apply Nat.div_eq_of_lt_le
    · have : b * (a / b) = a := by omega
      rw [mul_comm, this]; omega
    · have : (a / b + 1) * b = b * (a / b) + b := by ring
      rw [this]; omega
  · rw [if_neg h0]
    symm
    apply Nat.div_eq_of_lt_le
    · have : (a / b + 1) * b = b * (a / b) + b := by ring
      rw [this]; omega
    · have : (a / b + 1 + 1) * b = b * (a / b) + b + b := by ring
      rw [this]; omega

theorem boundLoop_step (interval per : ℕ) (ok : RB → Bool) (rem : ℕ) (r : RB) (cont : List RB) :
    boundLoop interval per ok rem (r :: cont) =
      let n := if ok r then min (min (r.maxNumRequests interval) per) rem else 0
      Interference.add ⟨n, n * r.req.length⟩ (boundLoop interval per ok (rem - n) cont) := by
  rw [boundLoop]
  by_cases h0 : rem = 0
  · subst h0
    have hz : ∀ c : List RB, boundLoop interval per ok 0 c = ⟨0, 0⟩ := by
      intro c
      cases c with
      | nil => rw [boundLoop]
      | cons r c => rw [boundLoop, if_pos rfl]
    simp only [if_true, Nat.min_zero, ite_self, Nat.zero_mul, Nat.sub_zero, hz]
    rfl
  · rw [if_neg h0]
    by_cases h : ok r = true
    · rw [if_pos h]; simp only [h, if_true]
    · rw [if_neg h]
      simp only [h]
      simp [Interference.add]

theorem boundLoop_add_le (interval per : ℕ) (ok : RB → Bool) (M d : ℕ) (cont : List RB)
    (hM : ∀ r ∈ cont, r.req.length ≤ M) : ∀ rem,
    (boundLoop interval per ok (rem + d) cont).total ≤ (boundLoop interval per ok rem cont).total + d * M := by
  induction cont generalizing d with
  | nil => intro rem; simp [boundLoop]
  | cons r cont ih =>
    intro rem
    rw [boundLoop_step, boundLoop_step]
    simp only [Interference.add]
    have hr := hM r List.mem_cons_self
    have hM' : ∀ r ∈ cont, r.req.length ≤ M := fun q hq => hM q (List.mem_cons_of_mem _ hq)
    generalize hn1 : (if ok r then min (min (r.maxNumRequests interval) per) (rem + d) else 0) = n1
    generalize hn2 : (if ok r then min (min (r.maxNumRequests interval) per) rem else 0) = n2
    have h12 : n2 ≤ n1 ∧ n1 ≤ n2 + d ∧ n2 ≤ rem ∧ n1 ≤ rem + d := by
      by_cases h : ok r = true
      · simp only [h, if_true] at hn1 hn2; omega
      · simp [h] at hn1 hn2; omega
    obtain ⟨h1, h2, h3, h4⟩ := h12
    have e : rem + d - n1 = (rem - n2) + (d - (n1 - n2)) := by omega
    rw [e]
    have := ih (d - (n1 - n2)) hM' (rem - n2)
    have hd : d * M = (n1 - n2) * M + (d - (n1 - n2)) * M := by
      rw [← Nat.add_mul]; congr 1; omega
    have hn : n1 * r.req.length = n2 * r.req.length + (n1 - n2) * r.req.length := by
      rw [← Nat.add_mul]; congr 1; omega
    have hl : (n1 - n2) * r.req.length ≤ (n1 - n2) * M := Nat.mul_le_mul_left _ hr
    omega

/-- What is needed of a single entry of a selection. -/
def CapOk (interval per : ℕ) (ok : RB → Bool) (p : ℕ × RB) : Prop :=
  p.1 ≤ if ok p.2 then min (p.2.maxNumRequests interval) per else 0

theorem volume_le (interval per : ℕ) (ok : RB → Bool) (cont : List RB) (hs : LongestFirst cont) :
    ∀ (rem : ℕ) (xs : List ℕ), xs.length = cont.length → xs.sum ≤ rem →
      (∀ p ∈ List.zip xs cont, CapOk interval per ok p) →
      volume xs cont ≤ (boundLoop interval per ok rem cont).total := by
  induction cont with
  | nil => intro rem xs _ _ _; cases xs <;> simp [volume]
  | cons r cont ih =>
    intro rem xs hl ht hc
    cases xs with
    | nil => simp at hl
    | cons x xs =>
      have hp := List.pairwise_cons.mp hs
      have hx := hc (x, r) (by simp)
      have ht' : x + xs.sum ≤ rem := by simpa using ht
      have := ih hp.2 (rem - x) xs (by simpa using hl) (by omega)
        (fun p hp => hc p (by simp only [List.zip_cons_cons]; exact List.mem_cons_of_mem _ hp))
      rw [boundLoop_step]
      simp only [Interference.add]
      unfold CapOk at hx
      simp only at hx
      generalize hn : (if ok r then min (min (r.maxNumRequests interval) per) rem else 0) = n
      have hxn : x ≤ n ∧ n ≤ rem := by
        by_cases h : ok r = true
        · simp only [h, if_true] at hn hx; omega
        · simp [h] at hn hx; omega
      have e : rem - x = (rem - n) + (n - x) := by omega
      rw [e] at this
      have h2 := boundLoop_add_le interval per ok r.req.length (n - x) cont hp.1 (rem - n)
      have hv : volume (x :: xs) (r :: cont) = x * r.req.length + volume xs cont := by simp [volume]
      have hm : n * r.req.length = x * r.req.length + (n - x) * r.req.length := by
        rw [← Nat.add_mul]; congr 1; omega
      rw [hv]
      omega

theorem volume_attained (interval per : ℕ) (ok : RB → Bool) (cont : List RB) :
    ∀ (rem : ℕ), ∃ xs : List ℕ, xs.length = cont.length ∧ xs.sum ≤ rem ∧
      (∀ p ∈ List.zip xs cont, CapOk interval per ok p) ∧
      xs.sum = (boundLoop interval per ok rem cont).count ∧
      volume xs cont = (boundLoop interval per ok rem cont).total := by
  induction cont with
  | nil => intro rem; exact ⟨[], by simp [volume, boundLoop]⟩
  | cons r cont ih =>
    intro rem
    rw [boundLoop_step]
    simp only [Interference.add]
    generalize hn : (if ok r then min (min (r.maxNumRequests interval) per) rem else 0) = n
    obtain ⟨xs, h1, h2, h3, h4, h5⟩ := ih (rem - n)
    have hn' : n ≤ rem ∧ CapOk interval per ok (n, r) := by
      unfold CapOk
      by_cases h : ok r = true
      · simp only [h, if_true] at hn ⊢; omega
      · simp [h] at hn ⊢; omega
    refine ⟨n :: xs, by simp [h1], by simp; omega, ?_, by simp [h4], by simp [volume] at h5 ⊢; omega⟩
    intro p hp
    rw [List.zip_cons_cons, List.mem_cons] at hp
    rcases hp with rfl | hp
    · exact hn'.2
    · exact h3 p hp

theorem admissible_iff {cont : List RB} (hper : ∀ r ∈ cont, 0 < r.info.period) (interval maxTotal per : ℕ)
    (ok : RB → Bool) (excluded : RB → Prop) (hok : ∀ r, ok r = true ↔ ¬ excluded r) (xs : List ℕ) :
    Admissible cont interval maxTotal per excluded xs ↔
      xs.length = cont.length ∧ xs.sum ≤ maxTotal ∧ ∀ p ∈ List.zip xs cont, CapOk interval per ok p := by
  have key : ∀ p ∈ List.zip xs cont, (CapOk interval per ok p ↔
      (p.1 ≤ per ∧ p.1 ≤ ((interval + p.2.info.response) ⌈/⌉ p.2.info.period) * p.2.req.num ∧
        (excluded p.2 → p.1 = 0))) := by
    intro p hp
    have hp0 := hper p.2 (List.of_mem_zip hp).2
    have := hok p.2
    unfold CapOk RB.maxNumRequests TaskInfo.maxNumJobs
    rw [divideWithCeil_eq hp0]
    by_cases h : ok p.2 = true
    · rw [if_pos h, le_min_iff]
      have := this.mp h
      tauto
    · rw [if_neg h]
      have he : excluded p.2 := by_contra fun hn => h (this.mpr hn)
      constructor
      · intro h0
        have : p.1 = 0 := by omega
        exact ⟨by omega, by rw [this]; exact Nat.zero_le _, fun _ => this⟩
      · intro h0; have := h0.2.2 he; omega
  constructor
  · rintro ⟨h1, h2, h3, h4, h5⟩
    exact ⟨h1, h2, fun p hp => (key p hp).mpr ⟨h3 p hp, h4 p hp, h5 p hp⟩⟩
  · rintro ⟨h1, h2, h3⟩
    exact ⟨h1, h2, fun p hp => ((key p hp).mp (h3 p hp)).1, fun p hp => ((key p hp).mp (h3 p hp)).2.1,
      fun p hp => ((key p hp).mp (h3 p hp)).2.2⟩

/-- **C39.** For a contention set with the longest requests first, `bound_blocking`
returns the largest total length of an admissible selection, where the excluded sources
are the analysed task and all tasks of higher priority than the given one. -/
theorem C39_bound_blocking (cont : List RB) (hs : LongestFirst cont)
    (hp : ∀ r ∈ cont, 0 < r.info.period) (interval maxTotal perSource exclude minPrio : ℕ) :
    IsGreatest {v | ∃ xs, Admissible cont interval maxTotal perSource
        (fun r => r.task = exclude ∨ r.info.priority < minPrio) xs ∧ v = volume xs cont}
      (boundBlocking cont interval maxTotal perSource exclude minPrio).total := by
  unfold boundBlocking
  have hadm := admissible_iff hp interval maxTotal perSource
    (fun r => decide (r.task ≠ exclude) && decide (r.info.priority ≥ minPrio))
    (fun r => r.task = exclude ∨ r.info.priority < minPrio)
    (by intro r; simp only [Bool.and_eq_true, decide_eq_true_eq]; push Not; rfl)
  constructor
  · obtain ⟨xs, h1, h2, h3, _, h5⟩ := volume_attained interval perSource _ cont maxTotal
    exact ⟨xs, (hadm xs).mpr ⟨h1, h2, h3⟩, h5.symm⟩
  · rintro v ⟨xs, hx, rfl⟩
    obtain ⟨h1, h2, h3⟩ := (hadm xs).mp hx
    exact volume_le interval perSource _ cont hs maxTotal xs h1 h2 h3

/-- **C39**, for the variant that excludes the analysed task and, if told so, all tasks of
its cluster. -/
theorem C39_bound_blocking_cluster (cont : List RB) (hs : LongestFirst cont)
    (hp : ∀ r ∈ cont, 0 < r.info.period) (interval maxTotal perSource : ℕ) (whole : Bool) (exclude : ℕ)
    (tsk : TaskInfo) :
    IsGreatest {v | ∃ xs, Admissible cont interval maxTotal perSource
        (fun r => r.task = exclude ∨ (whole = true ∧ r.info.cluster = tsk.cluster)) xs ∧
          v = volume xs cont}
      (boundBlockingCluster cont interval maxTotal perSource whole exclude tsk).total := by
  unfold boundBlockingCluster
  have hadm := admissible_iff hp interval maxTotal perSource
    (fun r => decide (r.task ≠ exclude) && (!whole || decide (r.info.cluster ≠ tsk.cluster)))
    (fun r => r.task = exclude ∨ (whole = true ∧ r.info.cluster = tsk.cluster))
    (by intro r; cases whole <;> simp)
  constructor
  · obtain ⟨xs, h1, h2, h3, _, h5⟩ := volume_attained interval perSource _ cont maxTotal
    exact ⟨xs, (hadm xs).mpr ⟨h1, h2, h3⟩, h5.symm⟩
  · rintro v ⟨xs, hx, rfl⟩
    obtain ⟨h1, h2, h3⟩ := (hadm xs).mp hx
    exact volume_le interval perSource _ cont hs maxTotal xs h1 h2 h3

/-- **C39.** Sorting a contention set reorders it with the longest requests first. -/
theorem C39_sorted (cont : List RB) : LongestFirst (sortByLength cont) ∧ (sortByLength cont).Perm cont := by
  constructor
  · unfold LongestFirst sortByLength
    have : Std.Total (fun a b : RB => a.req.length ≥ b.req.length) := ⟨fun a b => Nat.le_total _ _⟩
    have : IsTrans RB (fun a b : RB => a.req.length ≥ b.req.length) := ⟨fun a b c h1 h2 => le_trans h2 h1⟩
    exact List.pairwise_insertionSort _ cont
  · exact List.perm_insertionSort _ cont

/-- The limits matter: three sources, at most two requests each, five in total. -/
def exCont : List RB :=
  [⟨1, ⟨1, 10, 10, 5, 0, 1, []⟩, 0, ⟨0, 2, 9, false⟩⟩, ⟨0, ⟨0, 10, 10, 5, 0, 1, []⟩, 0, ⟨0, 9, 8, false⟩⟩,
    ⟨2, ⟨2, 100, 100, 50, 1, 1, []⟩, 0, ⟨0, 1, 7, false⟩⟩, ⟨3, ⟨3, 10, 10, 5, 1, 1, []⟩, 0, ⟨0, 3, 4, false⟩⟩]

example : LongestFirst exCont ∧ (∀ r ∈ exCont, 0 < r.info.period) ∧
    boundBlocking exCont 20 5 2 0 = ⟨5, 33⟩ ∧ boundBlocking exCont 20 5 2 0 2 = ⟨3, 15⟩ ∧
    Admissible exCont 20 5 2 (fun r => r.task = 0 ∨ r.info.priority < 0) [2, 0, 1, 2] := by
  refine ⟨by unfold LongestFirst exCont; decide, by decide, by decide, by decide, ?_⟩
  constructor <;> decide

end Verif.SR
