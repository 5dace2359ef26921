/-
Properties C49 and C81: the response-time analysis of Guan and Yi for EDF.
-/
import Verif.Lemmas.GyRta
import Verif.Lemmas.EdfBusy
import Verif.Spec.EdfResponse
import Verif.Lemmas.Sort
import Mathlib.Algebra.BigOperators.Fin
import Mathlib.Tactic.FinCases
import Mathlib.Data.Fin.VecNotation

namespace Verif.GyRta
open Spec

/-- The task set with the given integer parameters. -/
def tasks {n : ℕ} (C T D : Fin n → ℕ) : TaskSystem := List.ofFn fun i => ⟨C i, T i, D i⟩

/-! ### What the analysis computes -/

section
variable {ts : TaskSystem}

theorem sorted_perm (ts : TaskSystem) : (TaskSystem.sortByDeadline ts).Perm ts := List.perm_insertionSort _ _

theorem sorted_strict (hnd : (ts.map (·.deadline)).Nodup) :
    (TaskSystem.sortByDeadline ts).Pairwise (fun a b => a.deadline < b.deadline) := by
  have : Std.Total (fun a b : SporadicTask => a.deadline ≤ b.deadline) := ⟨fun a b => le_total _ _⟩
  have : IsTrans SporadicTask (fun a b : SporadicTask => a.deadline ≤ b.deadline) :=
    ⟨fun a b c h1 h2 => h1.trans h2⟩
  have h1 : (TaskSystem.sortByDeadline ts).Pairwise (fun a b => a.deadline ≤ b.deadline) :=
    List.pairwise_insertionSort _ _
  have h2 : ((TaskSystem.sortByDeadline ts).map (·.deadline)).Nodup :=
    ((sorted_perm ts).map _).nodup_iff.2 hnd
  unfold List.Nodup at h2
  rw [List.pairwise_map] at h2
  exact (h1.and h2).imp fun h => lt_of_le_of_ne h.1 h.2

theorem mem_points' (h : ∀ t ∈ ts, t.Ok) (L p : ℚ) :
    p ∈ TaskSystem.dbfPointsOfChange ts L ↔ p ≤ L ∧ ∃ t ∈ ts, ∃ k : ℕ, p = t.deadline + k * t.period := by
  rw [C03_dbf_points_system ts h]
  simp only [add_zero, lt_irrefl, false_implies, and_true]
  unfold TaskSystem.dbf
  rw [changesAt_listSum ts SporadicTask.dbf (fun t ht => dbf_mono t (h t ht).2.1 (h t ht).1.le)]
  constructor
  · rintro ⟨h1, t, ht, h2⟩
    exact ⟨h1, t, ht, (changesAt_dbf t (h t ht).2.1 (h t ht).2.2 (h t ht).1 p).1 h2⟩
  · rintro ⟨h1, t, ht, h2⟩
    exact ⟨h1, t, ht, (changesAt_dbf t (h t ht).2.1 (h t ht).2.2 (h t ht).1 p).2 h2⟩

theorem maxDeadline_spec {d : ℚ} (hd : maxDeadline ts = some d) :
    (∀ t ∈ ts, t.deadline ≤ d) ∧ ∃ t ∈ ts, t.deadline = d := by
  unfold maxDeadline at hd
  have := List.max?_eq_some_iff.1 hd
  constructor
  · intro t ht
    exact this.2 _ (List.mem_map.2 ⟨t, ht, rfl⟩)
  · obtain ⟨t, ht, e⟩ := List.mem_map.1 this.1
    exact ⟨t, ht, e⟩

/-- For distinct deadlines, the slack of each task is the minimum over all points
not before its deadline. -/
theorem wcrt_spec (h : ∀ t ∈ ts, t.Ok) (hnd : (ts.map (·.deadline)).Nodup)
    {upd : TaskSystem → Option ℚ → ℚ → Option (Option ℚ)} {v : ℚ → ℚ}
    (hupd : ∀ p s r, upd (TaskSystem.sortByDeadline ts) s p = some r → r = minInf s (v p))
    {fuel : ℕ} {res : List (SporadicTask × Option ℚ)} (hw : wcrt fuel ts uniprocessor upd = some (some res)) :
    res.map Prod.fst = TaskSystem.sortByDeadline ts ∧
    ∃ l d, findLPrime (TaskSystem.rbf (TaskSystem.sortByDeadline ts)) uniprocessor fuel 0 = some l ∧
      maxDeadline (TaskSystem.sortByDeadline ts) = some d ∧
      ∀ e ∈ res, ∃ x, e.2 = some (e.1.deadline - x) ∧
        IsLeast {y | ∃ p, p ≤ l + d ∧ (∃ t ∈ ts, ∃ k : ℕ, p = t.deadline + k * t.period) ∧
          e.1.deadline ≤ p ∧ y = v p} x := by
  unfold wcrt at hw
  split_ifs at hw with hU
  · simp at hw
  simp only at hw
  set st := TaskSystem.sortByDeadline ts with hst
  have hmem : ∀ t, t ∈ st ↔ t ∈ ts := fun t => (sorted_perm ts).mem_iff
  have hst' : ∀ t ∈ st, t.Ok := fun t ht => h t ((hmem t).1 ht)
  unfold deltaValues findL at hw
  cases hl : findLPrime (TaskSystem.rbf st) uniprocessor fuel 0 with
  | none => rw [hl] at hw; simp at hw
  | some l =>
    cases hd : maxDeadline st with
    | none => rw [hl, hd] at hw; simp at hw
    | some d =>
      rw [hl, hd] at hw
      simp only [Option.bind_some, Option.map_some] at hw
      cases hs : sweep st (upd st) (TaskSystem.dbfPointsOfChange st (l + d)) 0 (List.replicate st.length none) with
      | none => rw [hs] at hw; simp at hw
      | some f =>
        rw [hs] at hw
        simp only [Option.map_some, Option.some.injEq] at hw
        obtain ⟨hl0, _⟩ := lprime_spec hst' hl
        obtain ⟨hdmax, td, htd, _⟩ := maxDeadline_spec hd
        have hstrict := sorted_strict hnd
        rw [← hst] at hstrict
        have hn : 0 < st.length := List.length_pos_of_mem htd
        have hsort : ∀ a b (ha : a < st.length) (hb : b < st.length), a < b → st[a].deadline < st[b].deadline :=
          fun a b ha hb hab => List.pairwise_iff_getElem.1 hstrict a b ha hb hab
        obtain ⟨hlen, hspec⟩ := sweep_spec hstrict _ (fun p _ => hupd p) 0 _ f
          (C03_points_strictly_increasing st (l + d) 0).1 hn (by simp)
          (fun p hp => by
            obtain ⟨_, t, ht, k, rfl⟩ := (mem_points' hst' _ _).1 hp
            have h1 : st[0].deadline ≤ t.deadline := by
              obtain ⟨j, hj, rfl⟩ := List.getElem_of_mem ht
              rcases Nat.eq_zero_or_pos j with h0 | h0
              · subst h0; exact le_rfl
              · exact (hsort 0 j hn hj h0).le
            have h2 : 0 ≤ (k : ℚ) * t.period := mul_nonneg (by positivity) (hst' t ht).2.1.le
            linarith)
          (fun k hk _ => by
            rw [mem_points' hst']
            refine ⟨?_, st[k], List.getElem_mem hk, 0, by simp⟩
            have := hdmax _ (List.getElem_mem hk)
            linarith) hs
        subst hw
        have hlen' : (suffixMin f).length = st.length := by rw [suffixMin_length, hlen]
        constructor
        · unfold responses
          rw [List.map_map]
          have : (Prod.fst ∘ fun p : SporadicTask × Option ℚ => (p.1, p.2.map fun x => p.1.deadline - x)) = Prod.fst := by
            funext p; rfl
          rw [this, List.map_fst_zip (by omega)]
        refine ⟨l, d, rfl, rfl, fun e he => ?_⟩
        unfold responses at he
        obtain ⟨⟨t, o⟩, hp, rfl⟩ := List.mem_map.1 he
        obtain ⟨k, hk, hke⟩ := List.getElem_of_mem hp
        rw [List.getElem_zip] at hke
        simp only [Prod.mk.injEq] at hke
        have hk' : k < st.length := by
          rw [List.length_zip] at hk; omega
        have hmin := hspec k hk' ∅ (by
          have : sufAt (List.replicate st.length none) k = none := by
            unfold sufAt
            rw [List.drop_replicate]
            induction st.length - k with
            | zero => rfl
            | succ j ih => rw [List.replicate_succ, List.foldr_cons, ih]; rfl
          rw [this]
          rfl)
        rw [← suffixMin_get f k (by omega), hke.2, Set.empty_union] at hmin
        have hset : {x | ∃ p ∈ TaskSystem.dbfPointsOfChange st (l + d), st[k].deadline ≤ p ∧ x = v p} =
            {y | ∃ p, p ≤ l + d ∧ (∃ t ∈ ts, ∃ k : ℕ, p = t.deadline + k * t.period) ∧ t.deadline ≤ p ∧ y = v p} := by
          ext y
          simp only [Set.mem_setOf_eq]
          constructor
          · rintro ⟨p, hp, h1, h2⟩
            obtain ⟨h3, t', ht', h4⟩ := (mem_points' hst' _ _).1 hp
            exact ⟨p, h3, ⟨t', (hmem t').1 ht', h4⟩, hke.1 ▸ h1, h2⟩
          · rintro ⟨p, h3, ⟨t', ht', h4⟩, h1, h2⟩
            exact ⟨p, (mem_points' hst' _ _).2 ⟨h3, t', (hmem t').2 ht', h4⟩, hke.1 ▸ h1, h2⟩
        rw [hset] at hmin
        cases o with
        | none =>
          exfalso
          have hmin : _ = ∅ := hmin
          rw [Set.eq_empty_iff_forall_notMem] at hmin
          apply hmin (v t.deadline)
          have htst : t ∈ st := hke.1 ▸ List.getElem_mem hk'
          refine ⟨t.deadline, ?_, ⟨t, (hmem t).1 htst, 0, by simp⟩, le_rfl, rfl⟩
          have := hdmax _ htst
          linarith
        | some x => exact ⟨x, rfl, hmin⟩

theorem dbf_perm {l l' : TaskSystem} (h : l.Perm l') (x : ℚ) : TaskSystem.dbf l x = TaskSystem.dbf l' x :=
  (h.map _).sum_eq

theorem rbf_perm {l l' : TaskSystem} (h : l.Perm l') (x : ℚ) : TaskSystem.rbf l x = TaskSystem.rbf l' x :=
  (h.map _).sum_eq

theorem mbf_perm {l l' : TaskSystem} (h : l.Perm l') (d x : ℚ) : mbf l d x = mbf l' d x :=
  (h.map _).sum_eq

/-- The least solution of `gamma = mbf(delta, gamma)`. -/
theorem gamma_exists (h : ∀ t ∈ ts, t.Ok) :
    ∃ γ : ℚ → ℚ, ∀ d, 0 ≤ γ d ∧ mbf ts d (γ d) = γ d ∧ (∀ y, 0 ≤ y → mbf ts d y ≤ y → γ d ≤ y) ∧
      ∀ fuel g, gammaLoop (mbf ts d) fuel 0 (mbf ts d 0) = some g → g = γ d := by
  have : ∀ d, ∃ g, 0 ≤ g ∧ mbf ts d g = g ∧ (∀ y, 0 ≤ y → mbf ts d y ≤ y → g ≤ y) ∧
      ∀ fuel g', gammaLoop (mbf ts d) fuel 0 (mbf ts d 0) = some g' → g' = g := by
    intro d
    obtain ⟨N, g, h1, h2, h3, h4⟩ := gamma_ends h d
    refine ⟨g, h2, h3, h4, fun fuel g' hg' => ?_⟩
    have h5 := gammaLoop_mono hg' (le_max_left fuel N)
    rw [h1 _ (le_max_right fuel N)] at h5
    exact (Option.some.inj h5).symm
  choose γ hγ using this
  exact ⟨γ, hγ⟩

theorem exactUpd_spec {γ : ℚ → ℚ} (hγ : ∀ d, 0 ≤ γ d ∧ mbf ts d (γ d) = γ d ∧
      (∀ y, 0 ≤ y → mbf ts d y ≤ y → γ d ≤ y) ∧
      ∀ fuel g, gammaLoop (mbf ts d) fuel 0 (mbf ts d 0) = some g → g = γ d)
    {fuel : ℕ} {p : ℚ} {s r : Option ℚ} (h : exactUpd fuel uniprocessor ts s p = some r) :
    r = minInf s (p - γ p) := by
  unfold exactUpd at h
  split_ifs at h with h1
  · have e : (fun gamma => uniprocessor (mbf ts p gamma)) = mbf ts p := rfl
    rw [e] at h
    cases hg : gammaLoop (mbf ts p) fuel 0 (uniprocessor (mbf ts p 0)) with
    | none => rw [hg] at h; simp at h
    | some g =>
      rw [hg] at h
      simp only [Option.map_some, Option.some.injEq] at h
      rw [← h, (hγ p).2.2.2 fuel g hg]
  · cases s with
    | none => simp [ltInf] at h1
    | some a =>
      simp only [ltInf, decide_eq_true_eq, not_lt] at h1
      simp only [Option.some.injEq] at h
      subst h
      simp only [minInf, Option.some.injEq]
      symm
      apply min_eq_left
      have := (hγ p).2.2.1 _ (sys_dbf_nonneg p) (mbf_le_dbf p _)
      unfold uniprocessor at h1
      linarith

theorem approx_spec (h : ∀ t ∈ ts, t.Ok) (hnd : (ts.map (·.deadline)).Nodup) {fuel : ℕ}
    {res : List (SporadicTask × Option ℚ)} (hw : approxWcrt fuel ts uniprocessor uniprocessor = some (some res)) :
    res.map Prod.fst = TaskSystem.sortByDeadline ts ∧
    ∃ l d, findLPrime (TaskSystem.rbf (TaskSystem.sortByDeadline ts)) uniprocessor fuel 0 = some l ∧
      maxDeadline (TaskSystem.sortByDeadline ts) = some d ∧
      ∀ e ∈ res, ∃ x, e.2 = some (e.1.deadline - x) ∧
        IsLeast {y | ∃ p, p ≤ l + d ∧ (∃ t ∈ ts, ∃ k : ℕ, p = t.deadline + k * t.period) ∧
          e.1.deadline ≤ p ∧ y = p - TaskSystem.dbf ts p} x := by
  apply wcrt_spec h hnd ?_ hw
  intro p s r hr
  simp only [approxUpd, Option.some.injEq, uniprocessor] at hr
  rw [← hr, dbf_perm (sorted_perm ts)]

theorem exact_spec (h : ∀ t ∈ ts, t.Ok) (hnd : (ts.map (·.deadline)).Nodup) {fuel : ℕ}
    {res : List (SporadicTask × Option ℚ)} (hw : exactWcrt fuel ts uniprocessor uniprocessor = some (some res)) :
    res.map Prod.fst = TaskSystem.sortByDeadline ts ∧
    ∃ γ : ℚ → ℚ, (∀ d, 0 ≤ γ d ∧ mbf ts d (γ d) = γ d ∧ (∀ y, 0 ≤ y → mbf ts d y ≤ y → γ d ≤ y)) ∧
    ∃ l d, findLPrime (TaskSystem.rbf (TaskSystem.sortByDeadline ts)) uniprocessor fuel 0 = some l ∧
      maxDeadline (TaskSystem.sortByDeadline ts) = some d ∧
      ∀ e ∈ res, ∃ x, e.2 = some (e.1.deadline - x) ∧
        IsLeast {y | ∃ p, p ≤ l + d ∧ (∃ t ∈ ts, ∃ k : ℕ, p = t.deadline + k * t.period) ∧
          e.1.deadline ≤ p ∧ y = p - γ p} x := by
  have hst' : ∀ t ∈ TaskSystem.sortByDeadline ts, t.Ok := fun t ht => h t ((sorted_perm ts).mem_iff.1 ht)
  obtain ⟨γ, hγ⟩ := gamma_exists hst'
  obtain ⟨h1, h2⟩ := wcrt_spec h hnd (upd := exactUpd fuel uniprocessor) (v := fun p => p - γ p)
    (fun p s r hr => exactUpd_spec hγ hr) hw
  refine ⟨h1, γ, fun d => ?_, h2⟩
  have := hγ d
  simp only [mbf_perm (sorted_perm ts)] at this
  exact ⟨this.1, this.2.1, this.2.2.1⟩

end

/-! ### Schedules -/

section
variable {n : ℕ} {C T D : Fin n → ℕ}

theorem tasks_ok (hC : ∀ i, 0 < C i) (hT : ∀ i, 0 < T i) (hD : ∀ i, 0 < D i) : ∀ t ∈ tasks C T D, t.Ok := by
  intro t ht
  obtain ⟨i, rfl⟩ := (List.mem_ofFn' _ _).1 ht
  refine ⟨?_, ?_, ?_⟩
  · show (0 : ℚ) < C i
    exact_mod_cast hC i
  · show (0 : ℚ) < T i
    exact_mod_cast hT i
  · show (0 : ℚ) < D i
    exact_mod_cast hD i

theorem mem_tasks {t : SporadicTask} : t ∈ tasks C T D ↔ ∃ i, t = ⟨C i, T i, D i⟩ := by
  unfold tasks
  rw [List.mem_ofFn']
  constructor
  · rintro ⟨i, rfl⟩; exact ⟨i, rfl⟩
  · rintro ⟨i, rfl⟩; exact ⟨i, rfl⟩

theorem tasks_nodup (hD : Function.Injective D) : ((tasks C T D).map (·.deadline)).Nodup := by
  unfold tasks
  rw [List.map_ofFn, List.nodup_ofFn]
  intro i j hij
  simp only [Function.comp_apply, Nat.cast_inj] at hij
  exact hD hij

theorem floor_nat_div (a b : ℕ) : ⌊((a : ℚ) / b)⌋ = ((a / b : ℕ) : ℤ) := by
  rw [Rat.floor_natCast_div_natCast]
  push_cast
  rfl

theorem dbf_nat {c p d : ℕ} (hc : 0 < c) (hp : 0 < p) (hd : 0 < d) (t : ℕ) :
    (⟨c, p, d⟩ : SporadicTask).dbf t = ((if t < d then 0 else (t - d) / p + 1 : ℕ) : ℚ) * c := by
  have hp' : (0 : ℚ) < p := by exact_mod_cast hp
  have hc' : (0 : ℚ) < c := by exact_mod_cast hc
  have hd' : (0 : ℚ) < d := by exact_mod_cast hd
  split_ifs with h
  · rw [dbf_of_lt _ hp' hc'.le _ (show (t : ℚ) < d by exact_mod_cast h)]; simp
  · rw [dbf_of_ge _ hp' hd' hc'.le _ (show (d : ℚ) ≤ t by exact_mod_cast not_lt.1 h)]
    simp only
    rw [← Nat.cast_sub (not_lt.1 h), floor_nat_div]
    push_cast
    rfl

theorem rbf_nat (c p t : ℕ) : (⟨c, p, d⟩ : SporadicTask).rbf t = ((t / p + 1 : ℕ) : ℚ) * c := by
  unfold SporadicTask.rbf
  rw [if_neg (by simp)]
  simp only
  rw [floor_nat_div]
  push_cast
  rfl

theorem mixed_le_mbf (hC : ∀ i, 0 < C i) (hT : ∀ i, 0 < T i) (hD : ∀ i, 0 < D i) (d g : ℕ) :
    (mixedDemand C T D d g : ℚ) ≤ mbf (tasks C T D) d g := by
  unfold mixedDemand mbf tasks
  rw [List.map_ofFn, List.sum_ofFn]
  push_cast
  apply Finset.sum_le_sum
  intro i _
  simp only [Function.comp_apply]
  have hc' : (0 : ℚ) ≤ C i := by positivity
  rw [dbf_nat (hC i) (hT i) (hD i), rbf_nat, ← min_mul_of_nonneg _ _ hc']
  apply mul_le_mul_of_nonneg_right _ hc'
  apply min_le_min
  · push_cast; exact le_rfl
  · have : (if g = 0 then 0 else (g - 1) / T i + 1) ≤ g / T i + 1 := by
      split_ifs
      · exact Nat.zero_le _
      · have := Nat.div_le_div_right (c := T i) (show g - 1 ≤ g by omega)
        omega
    exact_mod_cast this

theorem demand_eq_dbf (hC : ∀ i, 0 < C i) (hT : ∀ i, 0 < T i) (hD : ∀ i, 0 < D i) (d : ℕ) :
    (demand C T D d : ℚ) = TaskSystem.dbf (tasks C T D) d := by
  unfold demand TaskSystem.dbf tasks
  rw [List.map_ofFn, List.sum_ofFn]
  push_cast
  apply Finset.sum_congr rfl
  intro i _
  simp only [Function.comp_apply]
  rw [card_periodic _ _ _ (hT i), dbf_nat (hC i) (hT i) (hD i)]

theorem mbf_ge (hC : ∀ i, 0 < C i) (hT : ∀ i, 0 < T i) (hD : ∀ i, 0 < D i) (i : Fin n) {p g : ℚ}
    (hp : D i ≤ p) (hg : 0 ≤ g) : (C i : ℚ) ≤ mbf (tasks C T D) p g := by
  have hok := tasks_ok hC hT hD
  set t : SporadicTask := ⟨C i, T i, D i⟩ with ht
  have hm : t ∈ tasks C T D := mem_tasks.2 ⟨i, rfl⟩
  have h1 : min (t.dbf p) (t.rbf g) ≤ mbf (tasks C T D) p g := by
    unfold mbf
    apply List.single_le_sum
    · intro y hy
      obtain ⟨t', ht', rfl⟩ := List.mem_map.1 hy
      exact le_min (dbf_nonneg t' p) (rbf_nonneg t' (hok t' ht').2.1 (hok t' ht').1.le g)
    · exact List.mem_map.2 ⟨t, hm, rfl⟩
  refine le_trans (le_min ?_ ?_) h1
  · rw [dbf_of_ge t (hok t hm).2.1 (hok t hm).2.2 (hok t hm).1.le p hp]
    have h2 : (0 : ℤ) ≤ ⌊(p - t.deadline) / t.period⌋ :=
      Int.floor_nonneg.2 (div_nonneg (by show (0 : ℚ) ≤ p - D i; linarith) (hok t hm).2.1.le)
    have h3 : (0 : ℚ) ≤ (⌊(p - t.deadline) / t.period⌋ : ℚ) := by exact_mod_cast h2
    have h4 : t.cost = C i := rfl
    have := (hok t hm).1
    nlinarith
  · unfold SporadicTask.rbf
    rw [if_neg (not_lt.2 hg)]
    have h2 : (0 : ℤ) ≤ ⌊g / t.period⌋ := Int.floor_nonneg.2 (div_nonneg hg (hok t hm).2.1.le)
    have h3 : (0 : ℚ) ≤ (⌊g / t.period⌋ : ℚ) := by exact_mod_cast h2
    have h4 : t.cost = C i := rfl
    have := (hok t hm).1
    nlinarith

/-- The mixed bound does not change between points of change of the demand. -/
theorem mbf_congr {ts : TaskSystem} (h : ∀ t ∈ ts, t.Ok) {p d : ℚ} (hpd : p ≤ d)
    (he : TaskSystem.dbf ts p = TaskSystem.dbf ts d) : ∀ t ∈ ts, t.dbf p = t.dbf d := by
  induction ts with
  | nil => intro t ht; simp at ht
  | cons a l ih =>
    have e : ∀ x, TaskSystem.dbf (a :: l) x = a.dbf x + TaskSystem.dbf l x := fun x => rfl
    rw [e, e] at he
    have h1 := dbf_mono a (h a (by simp)).2.1 (h a (by simp)).1.le hpd
    have h2 : TaskSystem.dbf l p ≤ TaskSystem.dbf l d := by
      unfold TaskSystem.dbf
      apply List.sum_le_sum
      intro t ht
      exact dbf_mono t (h t (List.mem_cons_of_mem a ht)).2.1 (h t (List.mem_cons_of_mem a ht)).1.le hpd
    intro t ht
    rcases List.mem_cons.1 ht with rfl | ht
    · linarith
    · exact ih (fun t ht => h t (List.mem_cons_of_mem a ht)) (by linarith) t ht

/-- If the slack `x` is at most the slack at every point not before the deadline
of task `i`, then its jobs respond within deadline minus `x`. -/
theorem responds (hC : ∀ i, 0 < C i) (hT : ∀ i, 0 < T i) (hD : ∀ i, 0 < D i) (i : Fin n) {l L x : ℚ} (hl0 : 0 ≤ l)
    (hl : TaskSystem.rbf (tasks C T D) l = l) (hL : l + D i ≤ L)
    (hx : ∀ p, p ≤ L → (∃ t ∈ tasks C T D, ∃ k : ℕ, p = t.deadline + k * t.period) → (D i : ℚ) ≤ p →
      ∃ γ, 0 ≤ γ ∧ mbf (tasks C T D) p γ ≤ γ ∧ x ≤ p - γ) :
    RespondsWithin C T D i (D i - x) := by
  have hok := tasks_ok hC hT hD
  have hc1 : (1 : ℚ) ≤ C i := by exact_mod_cast hC i
  intro w σ hs hv he k t ht
  obtain ⟨t0, ht0, hbusy⟩ := uni_busy hs hT hv he (i, k)
  set d := w.deadline D (i, k) - t0 with hd
  have hdD : D i ≤ d := by
    rw [hd]; unfold Workload.deadline; simp only; omega
  have hnat : ∀ g : ℚ, 0 ≤ g → mbf (tasks C T D) d g ≤ g → mixedDemand C T D d ⌊g⌋₊ ≤ ⌊g⌋₊ ∧ 0 < ⌊g⌋₊ := by
    intro g hg hm
    have h1 := mixed_le_mbf hC hT hD d ⌊g⌋₊
    have h2 : mbf (tasks C T D) d (⌊g⌋₊ : ℚ) ≤ mbf (tasks C T D) d g := mbf_mono hok _ (Nat.floor_le hg)
    refine ⟨Nat.le_floor (by linarith), ?_⟩
    rw [Nat.floor_pos]
    have := mbf_ge hC hT hD i (p := (d : ℚ)) (g := g) (by exact_mod_cast hdD) hg
    linarith
  have hdL : (d : ℚ) ≤ L := by
    obtain ⟨h1, h2⟩ := hnat l hl0 ((mbf_le_rbf _ _).trans hl.le)
    obtain ⟨h3, _⟩ := hbusy _ h2 h1
    have h4 : d ≤ ⌊l⌋₊ + D i := by
      rw [hd]; unfold Workload.deadline; simp only; omega
    have h5 : (d : ℚ) ≤ (⌊l⌋₊ : ℚ) + D i := by exact_mod_cast h4
    have h6 := Nat.floor_le hl0
    linarith
  -- the last point of change
  set ti : SporadicTask := ⟨C i, T i, D i⟩ with hti
  have htm : ti ∈ tasks C T D := mem_tasks.2 ⟨i, rfl⟩
  have hmonod : Monotone (TaskSystem.dbf (tasks C T D)) :=
    monotone_listSum _ SporadicTask.dbf (fun t ht => dbf_mono t (hok t ht).2.1 (hok t ht).1.le)
  have hchi : ChangesAt (TaskSystem.dbf (tasks C T D)) (D i) := by
    unfold TaskSystem.dbf
    rw [changesAt_listSum _ SporadicTask.dbf (fun t ht => dbf_mono t (hok t ht).2.1 (hok t ht).1.le)]
    exact ⟨ti, htm, (changesAt_dbf ti (hok ti htm).2.1 (hok ti htm).2.2 (hok ti htm).1 _).2 ⟨0, by simp [ti]⟩⟩
  have hlt := (changesAt_iff hmonod _).1 hchi
  obtain ⟨p, hpd, hpe, hpp, hpD⟩ : ∃ p ≤ (d : ℚ), TaskSystem.dbf (tasks C T D) p = TaskSystem.dbf (tasks C T D) d ∧
      (∃ t ∈ tasks C T D, ∃ k : ℕ, p = t.deadline + k * t.period) ∧ (D i : ℚ) ≤ p := by
    have hge := hmonod (show (D i : ℚ) ≤ d by exact_mod_cast hdD)
    rcases dbf_system_last_point (tasks C T D) hok d with h0 | ⟨p, hp1, hp2, t', ht', hch⟩
    · have := hlt (D i - 1) (by linarith)
      have := sys_dbf_nonneg (ts := tasks C T D) (D i - 1)
      linarith
    · refine ⟨p, hp1, hp2, ⟨t', ht', (changesAt_dbf t' (hok t' ht').2.1 (hok t' ht').2.2 (hok t' ht').1 p).1 hch⟩, ?_⟩
      by_contra hc
      have := hlt p (not_le.1 hc)
      linarith
  obtain ⟨γ, hγ0, hγ, hxγ⟩ := hx p (hpd.trans hdL) hpp hpD
  have hmb : mbf (tasks C T D) d γ = mbf (tasks C T D) p γ := by
    unfold mbf
    congr 1
    apply List.map_congr_left
    intro t ht
    rw [mbf_congr hok hpd hpe t ht]
  obtain ⟨h1, h2⟩ := hnat γ hγ0 (by rw [hmb]; exact hγ)
  obtain ⟨_, h3⟩ := hbusy _ h2 h1
  apply h3.mono
  have h4 : (w.deadline D (i, k) : ℚ) = w.release (i, k) + D i := by
    unfold Workload.deadline; push_cast; rfl
  have h5 : t0 ≤ w.deadline D (i, k) := by unfold Workload.deadline; omega
  have h6 : (d : ℚ) = w.release (i, k) + D i - t0 := by
    rw [hd, Nat.cast_sub h5, h4]
  have h7 := Nat.floor_le hγ0
  have : ((t0 + ⌊γ⌋₊ : ℕ) : ℚ) ≤ t := by
    push_cast
    linarith
  exact_mod_cast this

/-- Entries of the result for a task. -/
theorem entry {res : List (SporadicTask × Option ℚ)}
    (h : res.map Prod.fst = TaskSystem.sortByDeadline (tasks C T D)) (i : Fin n) :
    ∃ o, ((⟨C i, T i, D i⟩ : SporadicTask), o) ∈ res := by
  have h1 : (⟨C i, T i, D i⟩ : SporadicTask) ∈ res.map Prod.fst := by
    rw [h, (sorted_perm _).mem_iff]
    exact mem_tasks.2 ⟨i, rfl⟩
  obtain ⟨⟨t, o⟩, he, rfl⟩ := List.mem_map.1 h1
  exact ⟨o, he⟩

/-- **C49** where it holds, `approx_wcrt`: for distinct deadlines, every task gets a
response time which is at least its cost and safe in every EDF schedule. -/
theorem C49_approx_partial (hC : ∀ i, 0 < C i) (hT : ∀ i, 0 < T i) (hD : ∀ i, 0 < D i)
    (hinj : Function.Injective D) {fuel : ℕ} {res : List (SporadicTask × Option ℚ)}
    (h : approxWcrt fuel (tasks C T D) uniprocessor uniprocessor = some (some res)) (i : Fin n) :
    ∃ R : ℚ, ((⟨C i, T i, D i⟩ : SporadicTask), some R) ∈ res ∧ C i ≤ R ∧ RespondsWithin C T D i R := by
  have hok := tasks_ok hC hT hD
  obtain ⟨h1, l, d, hl, hd, hall⟩ := approx_spec hok (tasks_nodup hinj) h
  obtain ⟨o, ho⟩ := entry h1 i
  obtain ⟨x, hx, hmin⟩ := hall _ ho
  simp only at hx hmin
  subst hx
  have hst' : ∀ t ∈ TaskSystem.sortByDeadline (tasks C T D), t.Ok := fun t ht => hok t ((sorted_perm _).mem_iff.1 ht)
  obtain ⟨hl0, hle⟩ := lprime_spec hst' hl
  rw [rbf_perm (sorted_perm _)] at hle
  have hdi : (D i : ℚ) ≤ d :=
    (maxDeadline_spec hd).1 ⟨C i, T i, D i⟩ ((sorted_perm _).mem_iff.2 (mem_tasks.2 ⟨i, rfl⟩))
  refine ⟨_, ho, ?_, ?_⟩
  · have h2 := hmin.2 ⟨D i, by linarith, ⟨_, mem_tasks.2 ⟨i, rfl⟩, 0, by simp⟩, le_rfl, rfl⟩
    have h3 := mbf_ge hC hT hD i (p := (D i : ℚ)) (g := 0) le_rfl le_rfl
    have h4 := mbf_le_dbf (ts := tasks C T D) (D i : ℚ) 0
    linarith
  · apply responds hC hT hD i hl0 hle (L := l + d) (by linarith)
    intro p hp1 hp2 hp3
    exact ⟨_, sys_dbf_nonneg p, mbf_le_dbf p _, hmin.2 ⟨p, hp1, hp2, hp3, rfl⟩⟩

/-- **C49** where it holds, `exact_wcrt`. -/
theorem C49_exact_partial (hC : ∀ i, 0 < C i) (hT : ∀ i, 0 < T i) (hD : ∀ i, 0 < D i)
    (hinj : Function.Injective D) {fuel : ℕ} {res : List (SporadicTask × Option ℚ)}
    (h : exactWcrt fuel (tasks C T D) uniprocessor uniprocessor = some (some res)) (i : Fin n) :
    ∃ R : ℚ, ((⟨C i, T i, D i⟩ : SporadicTask), some R) ∈ res ∧ C i ≤ R ∧ RespondsWithin C T D i R := by
  have hok := tasks_ok hC hT hD
  obtain ⟨h1, γ, hγ, l, d, hl, hd, hall⟩ := exact_spec hok (tasks_nodup hinj) h
  obtain ⟨o, ho⟩ := entry h1 i
  obtain ⟨x, hx, hmin⟩ := hall _ ho
  simp only at hx hmin
  subst hx
  have hst' : ∀ t ∈ TaskSystem.sortByDeadline (tasks C T D), t.Ok := fun t ht => hok t ((sorted_perm _).mem_iff.1 ht)
  obtain ⟨hl0, hle⟩ := lprime_spec hst' hl
  rw [rbf_perm (sorted_perm _)] at hle
  have hdi : (D i : ℚ) ≤ d :=
    (maxDeadline_spec hd).1 ⟨C i, T i, D i⟩ ((sorted_perm _).mem_iff.2 (mem_tasks.2 ⟨i, rfl⟩))
  refine ⟨_, ho, ?_, ?_⟩
  · have h2 := hmin.2 ⟨D i, by linarith, ⟨_, mem_tasks.2 ⟨i, rfl⟩, 0, by simp⟩, le_rfl, rfl⟩
    have h3 := mbf_ge hC hT hD i (p := (D i : ℚ)) (g := γ (D i)) le_rfl (hγ _).1
    rw [(hγ _).2.1] at h3
    linarith
  · apply responds hC hT hD i hl0 hle (L := l + d) (by linarith)
    intro p hp1 hp2 hp3
    exact ⟨_, (hγ p).1, (hγ p).2.1.le, hmin.2 ⟨p, hp1, hp2, hp3, rfl⟩⟩

/-- Response times within the deadlines are schedulability. -/
theorem schedulable_of_responds {R : Fin n → ℚ} (h : ∀ i, RespondsWithin C T D i (R i)) (hR : ∀ i, R i ≤ D i) :
    EdfSchedulable 1 C T D := by
  intro w σ hs hv he j
  apply h j.1 w σ hs hv he j.2
  unfold Workload.deadline
  have := hR j.1
  push_cast
  linarith

theorem slack_nonneg (hC : ∀ i, 0 < C i) (hT : ∀ i, 0 < T i) (hD : ∀ i, 0 < D i) (hs : EdfSchedulable 1 C T D) {p : ℚ}
    (hp : ∃ t ∈ tasks C T D, ∃ k : ℕ, p = t.deadline + k * t.period) : TaskSystem.dbf (tasks C T D) p ≤ p := by
  obtain ⟨t, ht, k, rfl⟩ := hp
  obtain ⟨i, rfl⟩ := mem_tasks.1 ht
  have h1 := (edfSchedulable_iff hT).1 hs (D i + k * T i)
  have h2 := demand_eq_dbf hC hT hD (D i + k * T i)
  simp only
  have e : ((D i + k * T i : ℕ) : ℚ) = (D i : ℚ) + k * T i := by push_cast; rfl
  rw [← e, ← h2]
  exact_mod_cast h1

/-- **C49**, schedulability: for distinct deadlines, the response times of
`approx_wcrt` are within the deadlines exactly if no deadline can be missed. -/
theorem C49_approx_schedulable_partial (hC : ∀ i, 0 < C i) (hT : ∀ i, 0 < T i) (hD : ∀ i, 0 < D i)
    (hinj : Function.Injective D) {fuel : ℕ} {res : List (SporadicTask × Option ℚ)}
    (h : approxWcrt fuel (tasks C T D) uniprocessor uniprocessor = some (some res)) :
    (∀ e ∈ res, ∃ R, e.2 = some R ∧ R ≤ e.1.deadline) ↔ EdfSchedulable 1 C T D := by
  constructor
  · intro hall
    have h1 := C49_approx_partial hC hT hD hinj h
    choose R hR1 _ hR3 using h1
    apply schedulable_of_responds hR3
    intro i
    obtain ⟨R', h2, h3⟩ := hall _ (hR1 i)
    simp only [Option.some.injEq] at h2 h3
    rw [h2]; exact h3
  · intro hs e he
    obtain ⟨_, l, d, _, _, hall⟩ := approx_spec (tasks_ok hC hT hD) (tasks_nodup hinj) h
    obtain ⟨x, hx, hmin⟩ := hall e he
    refine ⟨_, hx, ?_⟩
    obtain ⟨p, _, hp, _, rfl⟩ := hmin.1
    have := slack_nonneg hC hT hD hs hp
    linarith

/-- **C49**, schedulability, `exact_wcrt`. -/
theorem C49_exact_schedulable_partial (hC : ∀ i, 0 < C i) (hT : ∀ i, 0 < T i) (hD : ∀ i, 0 < D i)
    (hinj : Function.Injective D) {fuel : ℕ} {res : List (SporadicTask × Option ℚ)}
    (h : exactWcrt fuel (tasks C T D) uniprocessor uniprocessor = some (some res)) :
    (∀ e ∈ res, ∃ R, e.2 = some R ∧ R ≤ e.1.deadline) ↔ EdfSchedulable 1 C T D := by
  constructor
  · intro hall
    have h1 := C49_exact_partial hC hT hD hinj h
    choose R hR1 _ hR3 using h1
    apply schedulable_of_responds hR3
    intro i
    obtain ⟨R', h2, h3⟩ := hall _ (hR1 i)
    simp only [Option.some.injEq] at h2 h3
    rw [h2]; exact h3
  · intro hs e he
    obtain ⟨_, γ, hγ, l, d, _, _, hall⟩ := exact_spec (tasks_ok hC hT hD) (tasks_nodup hinj) h
    obtain ⟨x, hx, hmin⟩ := hall e he
    refine ⟨_, hx, ?_⟩
    obtain ⟨p, _, hp, _, rfl⟩ := hmin.1
    have h1 := slack_nonneg hC hT hD hs hp
    have h2 := (hγ p).2.2 _ (sys_dbf_nonneg p) (mbf_le_dbf p _)
    linarith

end

/-! ### Termination -/

section
variable {ts : TaskSystem}

theorem util_perm {l l' : TaskSystem} (h : l.Perm l') :
    (l.map fun t => t.cost / t.period).sum = (l'.map fun t => t.cost / t.period).sum := (h.map _).sum_eq

theorem wcrt_ends (h : ∀ t ∈ ts, t.Ok) (hne : ts ≠ []) (hU : (ts.map fun t => t.cost / t.period).sum < 1)
    {upd : ℕ → TaskSystem → Option ℚ → ℚ → Option (Option ℚ)}
    (hupd : ∀ p, ∃ N, ∀ fuel ≥ N, ∀ s, ∃ r, upd fuel (TaskSystem.sortByDeadline ts) s p = some r) :
    ∃ N, ∀ fuel ≥ N, ∃ res, wcrt fuel ts uniprocessor (upd fuel) = some (some res) ∧
      (res.map Prod.fst).Perm ts ∧ (res.map Prod.fst).Pairwise (fun a b => a.deadline ≤ b.deadline) := by
  set st := TaskSystem.sortByDeadline ts with hst
  have hst' : ∀ t ∈ st, t.Ok := fun t ht => h t ((sorted_perm ts).mem_iff.1 ht)
  obtain ⟨N1, l, hl⟩ := lprime_ends (ts := st) hst' (by
    have := util_perm (sorted_perm ts)
    show (st.map fun t => t.cost / t.period).sum < 1
    rw [hst, this]; exact hU)
  obtain ⟨d, hd⟩ : ∃ d, maxDeadline st = some d := by
    unfold maxDeadline
    cases hm : (st.map (·.deadline)).max? with
    | some d => exact ⟨d, rfl⟩
    | none =>
      rw [List.max?_eq_none_iff, List.map_eq_nil_iff] at hm
      have := (sorted_perm ts).length_eq
      rw [← hst, hm] at this
      exact absurd (List.length_eq_zero_iff.1 this.symm) hne
  choose N hN using hupd
  obtain ⟨N2, hN2⟩ : ∃ N2, ∀ p ∈ TaskSystem.dbfPointsOfChange st (l + d), N p ≤ N2 :=
    ⟨((TaskSystem.dbfPointsOfChange st (l + d)).map N).sum,
      fun p hp => List.le_sum_of_mem (List.mem_map.2 ⟨p, hp, rfl⟩)⟩
  refine ⟨max N1 N2, fun fuel hf => ?_⟩
  obtain ⟨f, hs⟩ := sweep_ends (ts := st) (upd := upd fuel st) (TaskSystem.dbfPointsOfChange st (l + d))
    (fun p hp s => hN p fuel ((hN2 p hp).trans ((le_max_right N1 N2).trans hf)) s) 0 (List.replicate st.length none)
  have hlen : ∀ (rem : List ℚ) (i : ℕ) (s f : List (Option ℚ)), sweep st (upd fuel st) rem i s = some f →
      f.length = s.length := by
    intro rem
    induction rem with
    | nil => intro i s f hsf; simp only [sweep, Option.some.injEq] at hsf; rw [hsf]
    | cons p rest ih =>
      intro i s f hsf
      simp only [sweep] at hsf
      cases hu : upd fuel st (s.getD (advance st i p) none) p with
      | none => rw [hu] at hsf; simp at hsf
      | some r =>
        rw [hu] at hsf
        have := ih _ _ _ hsf
        simpa using this
  have hfl : f.length = st.length := by rw [hlen _ _ _ _ hs]; simp
  have hfst : (responses st f).map Prod.fst = st := by
    unfold responses
    rw [List.map_map]
    have : (Prod.fst ∘ fun p : SporadicTask × Option ℚ => (p.1, p.2.map fun x => p.1.deadline - x)) = Prod.fst := by
      funext p; rfl
    rw [this, List.map_fst_zip (by rw [suffixMin_length]; omega)]
  refine ⟨responses st f, ?_, by rw [hfst]; exact sorted_perm ts, ?_⟩
  · unfold wcrt
    have hU' : ¬ TaskSystem.utilization ts > 1 := not_lt.2 (le_of_lt hU)
    rw [if_neg hU']
    simp only
    unfold deltaValues findL
    rw [← hst, hl fuel ((le_max_left N1 N2).trans hf), hd]
    simp only [Option.bind_some, Option.map_some]
    rw [hs]
    rfl
  · rw [hfst]
    have : Std.Total (fun a b : SporadicTask => a.deadline ≤ b.deadline) := ⟨fun a b => le_total _ _⟩
    have : IsTrans SporadicTask (fun a b : SporadicTask => a.deadline ≤ b.deadline) :=
      ⟨fun a b c h1 h2 => h1.trans h2⟩
    exact List.pairwise_insertionSort _ _

/-- **C49**, termination: both analyses end if the utilization is below 1, and list
every task once, by non-decreasing deadline. -/
theorem C49_ends_partial (h : ∀ t ∈ ts, 0 < t.cost ∧ 0 < t.period ∧ 0 < t.deadline) (hne : ts ≠ [])
    (hU : (ts.map fun t => t.cost / t.period).sum < 1) :
    ∃ N, ∀ fuel ≥ N,
      (∃ res, approxWcrt fuel ts uniprocessor uniprocessor = some (some res) ∧ (res.map Prod.fst).Perm ts ∧
        (res.map Prod.fst).Pairwise (fun a b => a.deadline ≤ b.deadline)) ∧
      (∃ res, exactWcrt fuel ts uniprocessor uniprocessor = some (some res) ∧ (res.map Prod.fst).Perm ts ∧
        (res.map Prod.fst).Pairwise (fun a b => a.deadline ≤ b.deadline)) := by
  have hst' : ∀ t ∈ TaskSystem.sortByDeadline ts, t.Ok := fun t ht => h t ((sorted_perm ts).mem_iff.1 ht)
  obtain ⟨N1, h1⟩ := wcrt_ends h hne hU (upd := fun _ => approxUpd uniprocessor)
    (fun p => ⟨0, fun fuel _ s => ⟨_, rfl⟩⟩)
  obtain ⟨N2, h2⟩ := wcrt_ends h hne hU (upd := fun fuel => exactUpd fuel uniprocessor)
    (fun p => by
      obtain ⟨N, g, hg, _⟩ := gamma_ends hst' p
      refine ⟨N, fun fuel hf s => ?_⟩
      unfold exactUpd
      split_ifs
      · have := hg fuel hf
        unfold uniprocessor
        rw [this]
        exact ⟨_, rfl⟩
      · exact ⟨_, rfl⟩)
  exact ⟨max N1 N2, fun fuel hf => ⟨h1 fuel ((le_max_left _ _).trans hf), h2 fuel ((le_max_right _ _).trans hf)⟩⟩

/-- A case that meets the hypotheses of the theorems above. -/
example : ∃ fuel res res', approxWcrt fuel (tasks ![1, 1] ![2, 10] ![2, 10]) uniprocessor uniprocessor = some (some res) ∧
    exactWcrt fuel (tasks ![1, 1] ![2, 10] ![2, 10]) uniprocessor uniprocessor = some (some res') := by
  have hts : tasks ![1, 1] ![2, 10] ![2, 10] = [⟨1, 2, 2⟩, ⟨1, 10, 10⟩] := by
    unfold tasks
    simp [List.ofFn_succ]
  rw [hts]
  obtain ⟨N, hN⟩ := C49_ends_partial (ts := [⟨1, 2, 2⟩, ⟨1, 10, 10⟩]) (by simp) (by simp) (by norm_num)
  obtain ⟨⟨res, h1, _⟩, res', h2, _⟩ := hN N le_rfl
  exact ⟨N, res, res', h1, h2⟩

/-- Overload is reported. -/
theorem C49_overload (hU : 1 < (ts.map fun t => t.cost / t.period).sum) (fuel : ℕ) (sbf inv : ℚ → ℚ) :
    approxWcrt fuel ts sbf inv = some none ∧ exactWcrt fuel ts sbf inv = some none := by
  have : TaskSystem.utilization ts > 1 := hU
  unfold approxWcrt exactWcrt wcrt
  rw [if_pos this, if_pos this]
  exact ⟨rfl, rfl⟩

theorem rbf_gt (h : ∀ t ∈ ts, t.Ok) (hne : ts ≠ []) {x : ℚ} (hx : 0 ≤ x) :
    (ts.map fun t => t.cost / t.period).sum * x < TaskSystem.rbf ts x := by
  induction ts with
  | nil => exact absurd rfl hne
  | cons a l ih =>
    have ha := h a (by simp)
    have h1 : a.cost / a.period * x < a.rbf x := by
      unfold SporadicTask.rbf
      rw [if_neg (not_lt.2 hx)]
      have h2 := Int.lt_floor_add_one (x / a.period)
      have h3 : a.cost / a.period * x = x / a.period * a.cost := by ring
      rw [h3]
      exact mul_lt_mul_of_pos_right h2 ha.1
    have e : TaskSystem.rbf (a :: l) x = a.rbf x + TaskSystem.rbf l x := rfl
    rw [e, List.map_cons, List.sum_cons, add_mul]
    by_cases hl : l = []
    · subst hl
      simp only [List.map_nil, List.sum_nil, zero_mul, TaskSystem.rbf]
      linarith
    · have := ih (fun t ht => h t (List.mem_cons_of_mem a ht)) hl
      linarith

/-- **C49** is violated for utilization 1: neither analysis ever ends. -/
theorem C49_full_utilization_violated (h : ∀ t ∈ ts, 0 < t.cost ∧ 0 < t.period ∧ 0 < t.deadline)
    (hU : (ts.map fun t => t.cost / t.period).sum = 1) (fuel : ℕ) :
    approxWcrt fuel ts uniprocessor uniprocessor = none ∧ exactWcrt fuel ts uniprocessor uniprocessor = none := by
  have hne : ts ≠ [] := by rintro rfl; simp at hU
  set st := TaskSystem.sortByDeadline ts with hst
  have hst' : ∀ t ∈ st, t.Ok := fun t ht => h t ((sorted_perm ts).mem_iff.1 ht)
  have hne' : st ≠ [] := by
    intro hc
    have := (sorted_perm ts).length_eq
    rw [← hst, hc] at this
    exact hne (List.length_eq_zero_iff.1 this.symm)
  have hU' : (st.map fun t => t.cost / t.period).sum = 1 := by rw [hst, util_perm (sorted_perm ts)]; exact hU
  have hnone : ∀ fuel x, 0 ≤ x → findLPrime (TaskSystem.rbf st) uniprocessor fuel x = none := by
    intro fuel
    induction fuel with
    | zero => intro x _; rfl
    | succ k ih =>
      intro x hx
      have := rbf_gt hst' hne' hx
      rw [hU', one_mul] at this
      unfold findLPrime
      have this' : ¬ TaskSystem.rbf st x ≤ uniprocessor x := not_le.2 this
      rw [if_neg this']
      apply ih
      unfold uniprocessor
      linarith
  have hw : ∀ upd, wcrt fuel ts uniprocessor upd = none := by
    intro upd
    unfold wcrt
    have : ¬ TaskSystem.utilization ts > 1 := by
      show ¬ (ts.map fun t => t.cost / t.period).sum > 1
      rw [hU]; simp
    rw [if_neg this]
    simp only
    unfold deltaValues findL
    rw [← hst, hnone fuel 0 le_rfl]
    rfl
  exact ⟨hw _, hw _⟩

example : (([⟨1, 2, 2⟩, ⟨2, 4, 4⟩] : TaskSystem).map fun t => t.cost / t.period).sum = 1 := by
  norm_num

/-- **C49** is violated for equal deadlines: both analyses report a response time of 3
for a task of cost 5. -/
theorem C49_equal_deadlines_violated :
    ∃ (ts : TaskSystem) (fuel : ℕ) (res : List (SporadicTask × Option ℚ)), (∀ t ∈ ts, t.Ok) ∧
      (ts.map fun t => t.cost / t.period).sum < 1 ∧
      approxWcrt fuel ts uniprocessor uniprocessor = some (some res) ∧
      exactWcrt fuel ts uniprocessor uniprocessor = some (some res) ∧
      ∃ t R, (t, some R) ∈ res ∧ R < t.cost := by
  let ts : TaskSystem := [⟨1, 8, 6⟩, ⟨2, 20, 8⟩, ⟨5, 40, 8⟩]
  have hpts : TaskSystem.dbfPointsOfChange ts 17 = [6, 8, 14] := by
    have h1 : countUpTo 6 8 17 = [6, 14] := by
      rw [countUpTo, dif_pos (by norm_num), countUpTo, dif_pos (by norm_num), countUpTo, dif_neg (by norm_num)]
      norm_num
    have h2 : countUpTo 8 20 17 = [8] := by
      rw [countUpTo, dif_pos (by norm_num), countUpTo, dif_neg (by norm_num)]
    have h3 : countUpTo 8 40 17 = [8] := by
      rw [countUpTo, dif_pos (by norm_num), countUpTo, dif_neg (by norm_num)]
    unfold TaskSystem.dbfPointsOfChange
    simp only [ts, List.map_cons, List.map_nil, SporadicTask.dbfPointsOfChange, sub_zero, gt_iff_lt, lt_irrefl,
      if_false, h1, h2, h3]
    norm_num [uniq, uniqFrom, heapqMerge, merge2, List.merge]
  have hsort : TaskSystem.sortByDeadline ts = ts := by decide +kernel
  have hL : findL 5 ts uniprocessor = some 17 := by decide +kernel
  have hd : deltaValues 5 ts uniprocessor = some [6, 8, 14] := by
    unfold deltaValues
    rw [hL, Option.map_some, hpts]
  have hU : ¬ TaskSystem.utilization ts > 1 := by decide +kernel
  refine ⟨ts, 5, [(⟨1, 8, 6⟩, some 6), (⟨2, 20, 8⟩, some 8), (⟨5, 40, 8⟩, some 3)], ?_, by norm_num [ts], ?_, ?_,
    ⟨5, 40, 8⟩, 3, by simp, by norm_num⟩
  · intro t ht
    simp only [ts, List.mem_cons, List.not_mem_nil, or_false] at ht
    rcases ht with rfl | rfl | rfl <;> (unfold SporadicTask.Ok; norm_num)
  · unfold approxWcrt wcrt
    rw [if_neg hU]
    simp only
    rw [hsort, hd]
    decide +kernel
  · unfold exactWcrt wcrt
    rw [if_neg hU]
    simp only
    rw [hsort, hd]
    decide +kernel

end

/-! ### C81: exactness -/

/-- **C81** where it holds: the refined response times are at most the
approximate ones, if the deadlines are distinct. -/
theorem C81_refines_partial {ts : TaskSystem} (h : ∀ t ∈ ts, 0 < t.cost ∧ 0 < t.period ∧ 0 < t.deadline)
    (hnd : (ts.map (·.deadline)).Nodup) {fuel fuel' : ℕ} {res res' : List (SporadicTask × Option ℚ)}
    (ha : approxWcrt fuel ts uniprocessor uniprocessor = some (some res))
    (he : exactWcrt fuel' ts uniprocessor uniprocessor = some (some res'))
    {t : SporadicTask} {R R' : ℚ} (hR : (t, some R) ∈ res) (hR' : (t, some R') ∈ res') : R' ≤ R := by
  have hst' : ∀ t ∈ TaskSystem.sortByDeadline ts, t.Ok := fun t ht => h t ((sorted_perm ts).mem_iff.1 ht)
  obtain ⟨_, l, d, hl, hd, hall⟩ := approx_spec h hnd ha
  obtain ⟨_, γ, hγ, l', d', hl', hd', hall'⟩ := exact_spec h hnd he
  have e1 := lprime_unique hst' hl hl'
  rw [hd] at hd'
  have e2 := Option.some.inj hd'
  subst e1 e2
  obtain ⟨x, hx, hmin⟩ := hall _ hR
  obtain ⟨x', hx', hmin'⟩ := hall' _ hR'
  simp only [Option.some.injEq] at hx hx' hmin hmin'
  obtain ⟨p, hp1, hp2, hp3, hp4⟩ := hmin'.1
  have h1 := hmin.2 ⟨p, hp1, hp2, hp3, rfl⟩
  have h2 := (hγ p).2.2 _ (sys_dbf_nonneg p) (mbf_le_dbf p _)
  linarith

/-- **C81** is violated: for the tasks (1, 2) and (1, 10) the analysis that is called
exact reports a response time of at least 3 for the second, but in every schedule its
jobs finish within 2 time units. -/
theorem C81_violated :
    ∃ (C T D : Fin 2 → ℕ), (∀ i, 0 < C i) ∧ (∀ i, 0 < T i) ∧ Function.Injective D ∧
      (∃ N, ∀ fuel ≥ N, ∃ res R, exactWcrt fuel (tasks C T D) uniprocessor uniprocessor = some (some res) ∧
        (⟨C 1, T 1, D 1⟩, some R) ∈ res ∧ 3 ≤ R) ∧
      RespondsWithin C T D 1 2 := by
  let C : Fin 2 → ℕ := ![1, 1]
  let T : Fin 2 → ℕ := ![2, 10]
  let D : Fin 2 → ℕ := ![2, 10]
  have hC : ∀ i, 0 < C i := by decide
  have hT : ∀ i, 0 < T i := by decide
  have hD : ∀ i, 0 < D i := by decide
  have hinj : Function.Injective D := by decide
  have hts : tasks C T D = [⟨1, 2, 2⟩, ⟨1, 10, 10⟩] := by
    unfold tasks
    simp [C, T, D, List.ofFn_succ]
  refine ⟨C, T, D, hC, hT, hinj, ?_, ?_⟩
  · obtain ⟨N, hN⟩ := C49_ends_partial (ts := tasks C T D) (tasks_ok hC hT hD) (by rw [hts]; simp)
      (by rw [hts]; norm_num)
    refine ⟨N, fun fuel hf => ?_⟩
    obtain ⟨_, res, hres, _⟩ := hN fuel hf
    obtain ⟨h1, γ, hγ, l, d, hl, hd, hall⟩ := exact_spec (tasks_ok hC hT hD) (tasks_nodup hinj) hres
    obtain ⟨o, ho⟩ := entry h1 1
    obtain ⟨x, hx, hmin⟩ := hall _ ho
    simp only at hx hmin
    subst hx
    refine ⟨res, _, hres, ho, ?_⟩
    have hok := tasks_ok hC hT hD
    have hst' : ∀ t ∈ TaskSystem.sortByDeadline (tasks C T D), t.Ok := fun t ht => hok t ((sorted_perm _).mem_iff.1 ht)
    obtain ⟨hl0, _⟩ := lprime_spec hst' hl
    have hdi : (D 1 : ℚ) ≤ d :=
      (maxDeadline_spec hd).1 ⟨C 1, T 1, D 1⟩ ((sorted_perm _).mem_iff.2 (mem_tasks.2 ⟨1, rfl⟩))
    have h2 := hmin.2 ⟨D 1, by linarith, ⟨_, mem_tasks.2 ⟨1, rfl⟩, 0, by simp⟩, le_rfl, rfl⟩
    have h3 : mbf (tasks C T D) (D 1 : ℕ) 0 = 2 := by rw [hts]; decide +kernel
    have h4 : mbf (tasks C T D) (D 1 : ℕ) 2 = 3 := by rw [hts]; decide +kernel
    have h5 := mbf_mono hok (D 1 : ℚ) (hγ (D 1)).1
    rw [h3, (hγ _).2.1] at h5
    have h6 := mbf_mono hok (D 1 : ℚ) h5
    rw [h4, (hγ _).2.1] at h6
    linarith
  · intro w σ hs hv he k t ht
    obtain ⟨t0, ht0, hb⟩ := uni_busy hs hT hv he (1, k)
    obtain ⟨_, h1⟩ := hb 2 (by norm_num) (by
      unfold mixedDemand
      rw [Fin.sum_univ_two]
      have e0 : (if 2 = 0 then 0 else (2 - 1) / T 0 + 1) = 1 := by decide
      have e1 : (if 2 = 0 then 0 else (2 - 1) / T 1 + 1) = 1 := by decide
      rw [e0, e1]
      have c0 : C 0 = 1 := rfl
      have c1 : C 1 = 1 := rfl
      rw [c0, c1]
      omega)
    apply h1.mono
    have : ((w.release (1, k) + 2 : ℕ) : ℚ) ≤ t := by push_cast; exact ht
    have : w.release (1, k) + 2 ≤ t := by exact_mod_cast this
    omega

end Verif.GyRta
