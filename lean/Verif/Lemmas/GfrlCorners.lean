/-
The lower envelope of the lines of the tasks, as `gfrl.py` computes it.
-/
import Verif.Model.Gfrl
import Mathlib.Tactic.Linarith
import Mathlib.Tactic.FieldSimp
import Mathlib.Tactic.Ring

namespace Verif.Gfrl
open Verif.Gel

variable {n m : ℕ} {ts : Fin n → GTask}

theorem lineAt_eq (L : ℚ) (i : Fin n) : lineAt m ts L i = intercept m ts i + (ts i).deadline * L := by
  unfold lineAt intercept; ring

/-- The lines of two tasks with different deadlines before and after they cross. -/
theorem before_crossing {i j : Fin n} (h : (ts j).deadline < (ts i).deadline) {L : ℚ} (hL : L ≤ crossing m ts i j) :
    lineAt m ts L i ≤ lineAt m ts L j := by
  have h' : ((ts j).deadline : ℚ) < (ts i).deadline := by exact_mod_cast h
  unfold crossing at hL
  rw [le_div_iff_of_neg (by linarith)] at hL
  rw [lineAt_eq, lineAt_eq]
  linarith

theorem after_crossing {i j : Fin n} (h : (ts j).deadline < (ts i).deadline) {L : ℚ} (hL : crossing m ts i j ≤ L) :
    lineAt m ts L j ≤ lineAt m ts L i := by
  have h' : ((ts j).deadline : ℚ) < (ts i).deadline := by exact_mod_cast h
  unfold crossing at hL
  rw [div_le_iff_of_neg (by linarith)] at hL
  rw [lineAt_eq, lineAt_eq]
  linarith

theorem at_crossing {i j : Fin n} (h : (ts j).deadline < (ts i).deadline) (L : ℚ) :
    lineAt m ts L j = lineAt m ts L i + ((ts j).deadline - (ts i).deadline) * (L - crossing m ts i j) := by
  have h' : ((ts j).deadline : ℚ) - (ts i).deadline ≠ 0 := by
    have : ((ts j).deadline : ℚ) < (ts i).deadline := by exact_mod_cast h
    linarith
  unfold crossing
  rw [lineAt_eq, lineAt_eq]
  field_simp
  ring

/-- The corners from the last one on, for the last line `prev`. -/
inductive Chain (m : ℕ) (ts : Fin n → GTask) : Fin n → List (Corner n) → Prop
  | nil (i : Fin n) : Chain m ts i []
  | cons (c : Corner n) (rest : List (Corner n)) (hd : (ts c.j).deadline < (ts c.i).deadline)
      (hl : c.loc = crossing m ts c.i c.j) (hp : 0 < c.loc) (hr : ∀ d ∈ rest, d.loc < c.loc)
      (h : Chain m ts c.i rest) : Chain m ts c.j (c :: rest)

/-- The first line. -/
def bottom : Fin n → List (Corner n) → Fin n
  | i, [] => i
  | _, c :: rest => bottom c.i rest

/-- The envelope. -/
def env (m : ℕ) (ts : Fin n → GTask) (L : ℚ) : Fin n → List (Corner n) → ℚ
  | i, [] => lineAt m ts L i
  | i, c :: rest => if c.loc ≤ L then lineAt m ts L i else env m ts L c.i rest

theorem env_last {i : Fin n} {l : List (Corner n)} {L : ℚ} (hL : ∀ c ∈ l, c.loc ≤ L) : env m ts L i l = lineAt m ts L i := by
  cases l with
  | nil => rfl
  | cons c rest =>
    unfold env
    rw [if_pos (hL c List.mem_cons_self)]

theorem env_le {i : Fin n} {l : List (Corner n)} (h : Chain m ts i l) (L : ℚ) : env m ts L i l ≤ lineAt m ts L i := by
  induction h with
  | nil i => exact le_rfl
  | cons c rest hd hl hp hr h ih =>
    unfold env
    split_ifs with hc
    · exact le_rfl
    · exact ih.trans (before_crossing hd (by rw [← hl]; exact (not_le.1 hc).le))

theorem Chain.pos {top : Fin n} {l : List (Corner n)} (h : Chain m ts top l) : ∀ c ∈ l, 0 < c.loc := by
  induction h with
  | nil i => simp
  | cons c rest hd hl hp hr h ih =>
    intro d hdm
    rcases List.mem_cons.1 hdm with rfl | hdm
    · exact hp
    · exact ih d hdm

/-- Popping corners for a flatter line. -/
theorem pop_spec {cur : Fin n} : ∀ {prev : Fin n} {stack : List (Corner n)}, Chain m ts prev stack →
    (ts cur).deadline < (ts prev).deadline →
    Chain m ts (popCorners m ts cur prev stack).1 (popCorners m ts cur prev stack).2 ∧
    (ts cur).deadline < (ts (popCorners m ts cur prev stack).1).deadline ∧
    bottom (popCorners m ts cur prev stack).1 (popCorners m ts cur prev stack).2 = bottom prev stack ∧
    (∀ c ∈ (popCorners m ts cur prev stack).2, c.loc < crossing m ts (popCorners m ts cur prev stack).1 cur) ∧
    ∀ L, min (env m ts L (popCorners m ts cur prev stack).1 (popCorners m ts cur prev stack).2) (lineAt m ts L cur) =
      min (env m ts L prev stack) (lineAt m ts L cur) := by
  intro prev stack h
  induction h with
  | nil i =>
    intro hd
    rw [popCorners]
    exact ⟨Chain.nil i, hd, rfl, by simp, fun L => rfl⟩
  | cons c rest hd hl hp hr h ih =>
    intro hcur
    rw [popCorners]
    split_ifs with hx
    · obtain ⟨h1, h2, h3, h4, h5⟩ := ih (hcur.trans hd)
      refine ⟨h1, h2, by rw [h3]; rfl, h4, fun L => ?_⟩
      rw [h5]
      by_cases hc : c.loc ≤ L
      · conv_rhs => rw [env, if_pos hc]
        have e1 : lineAt m ts L cur ≤ lineAt m ts L c.j := after_crossing hcur (le_trans hx hc)
        have e2 : lineAt m ts L c.j ≤ lineAt m ts L c.i := after_crossing hd (by rw [← hl]; exact hc)
        rw [env_last (fun d hdm => (hr d hdm).le.trans hc), min_eq_right e1, min_eq_right (e1.trans e2)]
      · conv_rhs => rw [env, if_neg hc]
    · have hx' := not_le.1 hx
      refine ⟨Chain.cons c rest hd hl hp hr h, hcur, rfl, ?_, fun L => rfl⟩
      intro d hdm
      rcases List.mem_cons.1 hdm with rfl | hdm
      · exact hx'
      · exact (hr d hdm).trans hx'

/-- Adding all lines. -/
theorem corners_env : ∀ {l : List (Fin n)} {zero prev : Fin n} {stack : List (Corner n)}, Chain m ts prev stack →
    bottom prev stack = zero → (prev :: l).Pairwise (fun i j => (ts j).deadline < (ts i).deadline) →
    ∃ top, Chain m ts top (corners m ts zero prev stack l).2 ∧
      bottom top (corners m ts zero prev stack l).2 = (corners m ts zero prev stack l).1 ∧
      ∀ L, 0 ≤ L → (∀ x, x ≤ env m ts L top (corners m ts zero prev stack l).2 ↔
        x ≤ env m ts L prev stack ∧ ∀ i ∈ l, x ≤ lineAt m ts L i) ∧
        (env m ts L top (corners m ts zero prev stack l).2 = env m ts L prev stack ∨
          ∃ i ∈ l, env m ts L top (corners m ts zero prev stack l).2 = lineAt m ts L i) := by
  intro l
  induction l with
  | nil =>
    intro zero prev stack hc hb _
    refine ⟨prev, hc, hb, fun L _ => ⟨fun x => ?_, Or.inl rfl⟩⟩
    simp [corners]
  | cons cur l ih =>
    intro zero prev stack hc hb hp
    rw [List.pairwise_cons] at hp
    obtain ⟨h1, h2, h3, h4, h5⟩ := pop_spec hc (hp.1 cur List.mem_cons_self)
    -- the envelope after adding one line, and the rest
    have key : ∀ zero' stack', corners m ts zero prev stack (cur :: l) = corners m ts zero' cur stack' l →
        Chain m ts cur stack' → bottom cur stack' = zero' →
        (∀ L, 0 ≤ L → env m ts L cur stack' = min (env m ts L prev stack) (lineAt m ts L cur)) →
        ∃ top, Chain m ts top (corners m ts zero prev stack (cur :: l)).2 ∧
          bottom top (corners m ts zero prev stack (cur :: l)).2 = (corners m ts zero prev stack (cur :: l)).1 ∧
          ∀ L, 0 ≤ L → (∀ x, x ≤ env m ts L top (corners m ts zero prev stack (cur :: l)).2 ↔
            x ≤ env m ts L prev stack ∧ ∀ i ∈ cur :: l, x ≤ lineAt m ts L i) ∧
            (env m ts L top (corners m ts zero prev stack (cur :: l)).2 = env m ts L prev stack ∨
              ∃ i ∈ cur :: l, env m ts L top (corners m ts zero prev stack (cur :: l)).2 = lineAt m ts L i) := by
      intro zero' stack' he hc' hb' henv
      rw [he]
      obtain ⟨top, t1, t2, t3⟩ := ih hc' hb' hp.2
      refine ⟨top, t1, t2, fun L hL => ⟨fun x => ?_, ?_⟩⟩
      · rw [(t3 L hL).1, henv L hL, le_min_iff]
        simp only [List.mem_cons, forall_eq_or_imp]
        tauto
      · rcases (t3 L hL).2 with t | ⟨i, hi, t⟩
        · rw [t, henv L hL]
          rcases min_choice (env m ts L prev stack) (lineAt m ts L cur) with e | e
          · exact Or.inl e
          · exact Or.inr ⟨cur, List.mem_cons_self, e⟩
        · exact Or.inr ⟨i, List.mem_cons_of_mem _ hi, t⟩
    generalize hr : popCorners m ts cur prev stack = r at h1 h2 h3 h4 h5
    have hcor : corners m ts zero prev stack (cur :: l) = if crossing m ts r.1 cur ≤ 0 then corners m ts cur cur r.2 l
        else corners m ts zero cur (⟨crossing m ts r.1 cur, r.1, cur⟩ :: r.2) l := by
      rw [corners, hr]
    by_cases hx : crossing m ts r.1 cur ≤ 0
    · rw [if_pos hx] at hcor
      have hr2 : r.2 = [] := by
        rcases hr2 : r.2 with _ | ⟨c, rest⟩
        · rfl
        · rw [hr2] at h1 h4
          have a := h4 c List.mem_cons_self
          have b := h1.pos c List.mem_cons_self
          linarith
      rw [hr2] at hcor h1 h5
      refine key cur [] hcor (Chain.nil cur) rfl fun L hL => ?_
      rw [← h5]
      unfold env
      exact (min_eq_right (after_crossing h2 (hx.trans hL))).symm
    · rw [if_neg hx] at hcor
      refine key zero _ hcor (Chain.cons ⟨_, r.1, cur⟩ r.2 h2 rfl (not_le.1 hx) h4 h1) (by rw [bottom, h3, hb]) fun L hL => ?_
      rw [← h5]
      rw [env]
      split_ifs with hc
      · rw [env_last (fun d hd => (h4 d hd).le.trans hc), min_eq_right (after_crossing h2 hc)]
      · rw [min_eq_left]
        exact (env_le h1 L).trans (before_crossing h2 (not_le.1 hc).le)

/-- The envelope as a sum over the corners. -/
theorem env_sum {top : Fin n} {l : List (Corner n)} (h : Chain m ts top l) (L : ℚ) :
    env m ts L top l = lineAt m ts L (bottom top l) +
      (l.map (fun c => (((ts c.j).deadline : ℚ) - (ts c.i).deadline) * max 0 (L - c.loc))).sum := by
  induction h with
  | nil i => simp [env, bottom]
  | cons c rest hd hl hp hr h ih =>
    rw [env, bottom, List.map_cons, List.sum_cons]
    split_ifs with hc
    · rw [env_last (fun d hdm => (hr d hdm).le.trans hc)] at ih
      rw [at_crossing hd, ih, max_eq_right (by linarith), hl]
      ring
    · rw [ih, max_eq_left (by linarith [not_le.1 hc])]
      ring

theorem Chain.sorted {top : Fin n} {l : List (Corner n)} (h : Chain m ts top l) :
    l.Pairwise (fun c d => d.loc < c.loc) := by
  induction h with
  | nil i => exact List.Pairwise.nil
  | cons c rest hd hl hp hr h ih => exact List.pairwise_cons.2 ⟨hr, ih⟩

/-! ### The tasks that are considered -/

theorem keep_sub : ∀ (i : Fin n) (l : List (Fin n)), ∀ j ∈ keepFirst ts i l, j ∈ l
  | _, [], j, h => by simp [keepFirst] at h
  | i, k :: l, j, h => by
    unfold keepFirst at h
    split_ifs at h
    · rcases List.mem_cons.1 h with rfl | h
      · exact List.mem_cons_self
      · exact List.mem_cons_of_mem _ (keep_sub k l j h)
    · exact List.mem_cons_of_mem _ (keep_sub k l j h)

theorem before_deadline {i j : Fin n} (h : before ts i j) : (ts j).deadline ≤ (ts i).deadline := by
  rcases h with h | h
  · exact h.le
  · exact h.1.le

theorem keep_spec : ∀ (l : List (Fin n)) (i : Fin n), (i :: l).Pairwise (before ts) →
    (∀ k, (ts k).deadline = (ts i).deadline → (k :: keepFirst ts i l).Pairwise (fun i j => (ts j).deadline < (ts i).deadline)) ∧
    ∀ j ∈ l, ((ts j).deadline = (ts i).deadline ∧ (ts j).cost ≤ (ts i).cost) ∨
      ∃ k ∈ keepFirst ts i l, (ts j).deadline = (ts k).deadline ∧ (ts j).cost ≤ (ts k).cost := by
  intro l
  induction l with
  | nil => intro i _; simp [keepFirst]
  | cons a l ih =>
    intro i h
    rw [List.pairwise_cons] at h
    obtain ⟨h1, h2⟩ := ih a h.2
    have hia := h.1 a List.mem_cons_self
    unfold keepFirst
    split_ifs with hd
    · have hlt : (ts a).deadline < (ts i).deadline := lt_of_le_of_ne (before_deadline hia) (Ne.symm hd)
      refine ⟨fun k hk => ?_, ?_⟩
      · have := h1 a rfl
        rw [List.pairwise_cons] at this ⊢
        refine ⟨?_, List.pairwise_cons.2 this⟩
        intro b hb
        rcases List.mem_cons.1 hb with rfl | hb
        · omega
        · have := this.1 b hb; omega
      · intro j hj
        right
        rcases List.mem_cons.1 hj with rfl | hj
        · exact ⟨j, List.mem_cons_self, rfl, le_rfl⟩
        · rcases h2 j hj with h3 | ⟨k, hk, h3⟩
          · exact ⟨a, List.mem_cons_self, h3⟩
          · exact ⟨k, List.mem_cons_of_mem _ hk, h3⟩
    · push Not at hd
      have hc : (ts a).cost ≤ (ts i).cost := by
        rcases hia with hia | ⟨_, hia⟩
        · omega
        · omega
      refine ⟨fun k hk => h1 k (by omega), ?_⟩
      intro j hj
      rcases List.mem_cons.1 hj with rfl | hj
      · exact Or.inl ⟨hd.symm, hc⟩
      · rcases h2 j hj with h3 | h3
        · exact Or.inl ⟨by omega, by omega⟩
        · exact Or.inr h3

instance before_total : Std.Total (before ts) := ⟨fun i j => by unfold before; omega⟩
instance before_trans : IsTrans (Fin n) (before ts) := ⟨fun i j k h1 h2 => by unfold before at *; omega⟩

/-- What the code computes for `s`. -/
theorem corners_spec (hm : 0 < m) {first : Fin n} {l : List (Fin n)} (h : ordered ts = first :: l)
    {r : Fin n × List (Corner n)} (hr : r = corners m ts first first [] (keepFirst ts first l)) :
    (∀ c ∈ r.2, 0 < c.loc) ∧ r.2.Pairwise (fun c d => d.loc < c.loc) ∧
    ∀ L, 0 ≤ L →
      (∀ i, lineAt m ts L r.1 + (r.2.map (fun c => (((ts c.j).deadline : ℚ) - (ts c.i).deadline) * max 0 (L - c.loc))).sum
        ≤ lineAt m ts L i) ∧
      ∃ i, lineAt m ts L r.1 + (r.2.map (fun c => (((ts c.j).deadline : ℚ) - (ts c.i).deadline) * max 0 (L - c.loc))).sum
        = lineAt m ts L i := by
  have hsort : (first :: l).Pairwise (before ts) := by
    rw [← h]; exact List.pairwise_insertionSort _ _
  obtain ⟨h1, h2⟩ := keep_spec l first hsort
  obtain ⟨top, t1, t2, t3⟩ := corners_env (m := m) (zero := first) (Chain.nil first) rfl (h1 first rfl)
  rw [← hr] at t1 t2 t3
  refine ⟨t1.pos, t1.sorted, fun L hL => ?_⟩
  rw [← t2, ← env_sum t1]
  refine ⟨fun i => ?_, ?_⟩
  · have hall := ((t3 L hL).1 (env m ts L top r.2)).1 le_rfl
    have hline : ∀ k, (ts i).deadline = (ts k).deadline ∧ (ts i).cost ≤ (ts k).cost →
        lineAt m ts L k ≤ lineAt m ts L i := by
      rintro k ⟨e1, e2⟩
      unfold lineAt
      rw [e1]
      have hm1 : (1 : ℚ) ≤ m := by exact_mod_cast hm
      have : ((m : ℚ) - 1) * (ts i).cost / m ≤ ((m : ℚ) - 1) * (ts k).cost / m := by
        apply div_le_div_of_nonneg_right _ (by linarith)
        exact mul_le_mul_of_nonneg_left (by exact_mod_cast e2) (by linarith)
      linarith
    have hi : i ∈ first :: l := by
      rw [← h]; unfold ordered
      rw [List.mem_insertionSort]
      exact List.mem_finRange i
    rcases List.mem_cons.1 hi with rfl | hi
    · exact hall.1
    · rcases h2 i hi with e | ⟨k, hk, e⟩
      · exact hall.1.trans (hline _ e)
      · exact (hall.2 k hk).trans (hline _ e)
  · rcases (t3 L hL).2 with t | ⟨i, _, t⟩
    · exact ⟨first, t⟩
    · exact ⟨i, t⟩

end Verif.Gfrl
