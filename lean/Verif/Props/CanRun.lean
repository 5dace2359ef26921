/-
C63: safety of the response-time analysis for fault-free CAN buses.
-/
import Verif.Props.Can
import Mathlib.Data.Finset.Max
import Mathlib.Algebra.Order.Floor.Ring
import Mathlib.Data.Int.Interval
import Mathlib.Tactic.FieldSimp

namespace Verif.Can

open Finset

/-! ### Specification: runs of the bus -/

/-- A frame of a message: the arrival of the request, the time at which the frame is queued
(up to the jitter later), and the time at which its transmission starts. -/
structure Frame (n : ℕ) where
  msg : Fin n
  arr : ℚ
  rel : ℚ
  start : ℚ
deriving DecidableEq

/-- The frame has been transmitted. -/
def Frame.done {n : ℕ} (b : Bus n) (f : Frame n) : ℚ := f.start + (b.msg f.msg).framesize * b.tau

/-- The bus is free for other frames again. -/
def Frame.free {n : ℕ} (b : Bus n) (f : Frame n) : ℚ := f.done b + b.interFrameSpace

/-- A fault-free run of the bus with the frames `F`; smaller ids have priority. -/
structure Run {n : ℕ} (b : Bus n) (ids : Fin n → ℤ) (F : Finset (Frame n)) : Prop where
  /-- arrivals are at least a period apart -/
  sporadic : ∀ f ∈ F, ∀ g ∈ F, f ≠ g → f.msg = g.msg →
    f.arr + (b.msg f.msg).period ≤ g.arr ∨ g.arr + (b.msg f.msg).period ≤ f.arr
  queued : ∀ f ∈ F, f.arr ≤ f.rel ∧ f.rel ≤ f.arr + (b.msg f.msg).jitter
  started : ∀ f ∈ F, f.rel ≤ f.start
  /-- frames of a message are sent in order -/
  fifo : ∀ f ∈ F, ∀ g ∈ F, f.msg = g.msg → f.arr < g.arr → f.start < g.start
  /-- one frame at a time, not preempted -/
  exclusive : ∀ f ∈ F, ∀ g ∈ F, f ≠ g → f.free b ≤ g.start ∨ g.free b ≤ f.start
  /-- no frame starts while one of higher priority is queued -/
  arbitration : ∀ f ∈ F, ∀ g ∈ F, ids g.msg < ids f.msg → f.start < g.start → f.start < g.rel
  /-- the bus is not idle while a frame is queued -/
  busy : ∀ f ∈ F, ∀ x, f.rel ≤ x → x < f.start → ∃ g ∈ F, g.start ≤ x ∧ x < g.free b

/-! ### Counterexample -/

/-- Three messages of 8 bytes, so frames of 132 bits, and 3 bits between frames. -/
def pushBus : Bus 3 where
  msg := ![⟨8, 337, 337, 0⟩, ⟨8, 473, 473, 0⟩, ⟨8, 473, 440, 0⟩]
  tau := 1
  interFrameSpace := 3
  maxErrorFrameSize := 31

/-- The second frame of the message of lowest priority is delayed by frames that were held
up by the first one. -/
def pushRun : Finset (Frame 3) :=
  {⟨0, 0, 0, 0⟩, ⟨1, 0, 0, 135⟩, ⟨2, 0, 0, 270⟩, ⟨0, 337, 337, 405⟩, ⟨1, 473, 473, 540⟩, ⟨0, 674, 674, 675⟩,
    ⟨2, 473, 473, 810⟩}

theorem pushRun_run : Run pushBus (fun k => (k.val : ℤ)) pushRun := by
  refine ⟨by decide +kernel, by decide +kernel, by decide +kernel, by decide +kernel, by decide +kernel,
    by decide +kernel, ?_⟩
  intro f hf x h1 h2
  have cover : ∀ x : ℚ, 0 ≤ x → x < 945 → ∃ g ∈ pushRun, g.start ≤ x ∧ x < g.free pushBus := by
    intro x h1 h2
    have key : ∀ g ∈ pushRun, g.free pushBus = g.start + 135 := by decide +kernel
    have pick : ∀ g ∈ pushRun, g.start ≤ x → x < g.start + 135 → ∃ g ∈ pushRun, g.start ≤ x ∧ x < g.free pushBus :=
      fun g hg a c => ⟨g, hg, a, by rw [key g hg]; exact c⟩
    by_cases c1 : x < 135
    · exact pick ⟨0, 0, 0, 0⟩ (by decide +kernel) h1 (by simpa using c1)
    by_cases c2 : x < 270
    · exact pick ⟨1, 0, 0, 135⟩ (by decide +kernel) (by simpa using c1) (by simp only; linarith)
    by_cases c3 : x < 405
    · exact pick ⟨2, 0, 0, 270⟩ (by decide +kernel) (by simpa using c2) (by simp only; linarith)
    by_cases c4 : x < 540
    · exact pick ⟨0, 337, 337, 405⟩ (by decide +kernel) (by simpa using c3) (by simp only; linarith)
    by_cases c5 : x < 675
    · exact pick ⟨1, 473, 473, 540⟩ (by decide +kernel) (by simpa using c4) (by simp only; linarith)
    by_cases c6 : x < 810
    · exact pick ⟨0, 674, 674, 675⟩ (by decide +kernel) (by simpa using c5) (by simp only; linarith)
    exact pick ⟨2, 473, 473, 810⟩ (by decide +kernel) (by simpa using c6) (by simp only; linarith)
  have hb : ∀ f ∈ pushRun, 0 ≤ f.rel ∧ f.start < 945 := by decide +kernel
  exact cover x (le_trans (hb f hf).1 h1) (lt_trans h2 (hb f hf).2)

/-- **C63 is violated.** The analysis finds that all messages meet their deadlines, the
last one with a worst-case time of 405, yet in a run of the bus a frame of that message is
complete only 469 after its arrival, which is after its deadline of 440. -/
theorem C63_violated :
    ∃ (b : Bus 3) (ids : Fin 3 → ℤ) (F : Finset (Frame 3)), b.Sane ∧ Function.Injective ids ∧
      (∀ i, ∃ w, b.wctt ids 10 i 0 = some w ∧ w + (b.msg i).jitter ≤ (b.msg i).deadline ∧
        (b.msg i).deadline ≤ (b.msg i).period) ∧
      Run b ids F ∧ ∃ f ∈ F, f.arr + (b.msg f.msg).deadline < f.done b := by
  refine ⟨pushBus, fun k => (k.val : ℤ), pushRun, ⟨by decide +kernel, by decide +kernel, by decide +kernel,
    by decide +kernel, by decide +kernel⟩, ?_, ?_, pushRun_run, by decide +kernel⟩
  · intro i j h
    exact Fin.ext (by simpa using h)
  · have h0 : pushBus.wctt (fun k => (k.val : ℤ)) 10 0 0 = some 267 := by decide +kernel
    have h1 : pushBus.wctt (fun k => (k.val : ℤ)) 10 1 0 = some 402 := by decide +kernel
    have h2 : pushBus.wctt (fun k => (k.val : ℤ)) 10 2 0 = some 405 := by decide +kernel
    intro i
    match i with
    | 0 => exact ⟨267, h0, by decide +kernel, by decide +kernel⟩
    | 1 => exact ⟨402, h1, by decide +kernel, by decide +kernel⟩
    | 2 => exact ⟨405, h2, by decide +kernel, by decide +kernel⟩

/-! ### Safety under an additional assumption -/

variable {n : ℕ} {b : Bus n} {ids : Fin n → ℤ}

/-- Intervals that cover `[a, c)` are together at least as long. -/
theorem cover_le {α : Type} [DecidableEq α] (s e : α → ℚ) (c : ℚ) : ∀ (k : ℕ) (G : Finset α), G.card = k →
    (∀ g ∈ G, s g ≤ e g) → ∀ a, (∀ x, a ≤ x → x < c → ∃ g ∈ G, s g ≤ x ∧ x < e g) →
    c - a ≤ ∑ g ∈ G, (e g - s g) := by
  intro k
  induction k with
  | zero =>
    intro G hG hle a hc
    by_cases h : a < c
    · obtain ⟨g, hg, _⟩ := hc a le_rfl h
      rw [Finset.card_eq_zero.mp hG] at hg
      simp at hg
    · rw [Finset.card_eq_zero.mp hG]
      simp; linarith
  | succ k ih =>
    intro G hG hle a hc
    by_cases h : a < c
    · obtain ⟨g, hg, h1, h2⟩ := hc a le_rfl h
      have := ih (G.erase g) (by rw [Finset.card_erase_of_mem hg]; omega)
        (fun x hx => hle x (Finset.mem_of_mem_erase hx)) (e g) (by
          intro x hx hxc
          obtain ⟨g', hg', a1, a2⟩ := hc x (by linarith) hxc
          refine ⟨g', Finset.mem_erase.mpr ⟨?_, hg'⟩, a1, a2⟩
          rintro rfl; linarith)
      rw [← Finset.add_sum_erase G _ hg]
      linarith
    · have : 0 ≤ ∑ g ∈ G, (e g - s g) := Finset.sum_nonneg fun g hg => by linarith [hle g hg]
      linarith

/-- Intervals that cover `[a, c]` are together longer. -/
theorem cover_lt {α : Type} [DecidableEq α] (s e : α → ℚ) (c : ℚ) : ∀ (k : ℕ) (G : Finset α), G.card = k →
    (∀ g ∈ G, s g ≤ e g) → ∀ a, a ≤ c → (∀ x, a ≤ x → x ≤ c → ∃ g ∈ G, s g ≤ x ∧ x < e g) →
    c - a < ∑ g ∈ G, (e g - s g) := by
  intro k
  induction k with
  | zero =>
    intro G hG hle a ha hc
    obtain ⟨g, hg, _⟩ := hc a le_rfl ha
    rw [Finset.card_eq_zero.mp hG] at hg
    simp at hg
  | succ k ih =>
    intro G hG hle a ha hc
    obtain ⟨g, hg, h1, h2⟩ := hc a le_rfl ha
    rw [← Finset.add_sum_erase G _ hg]
    by_cases he : e g ≤ c
    · have := ih (G.erase g) (by rw [Finset.card_erase_of_mem hg]; omega)
        (fun x hx => hle x (Finset.mem_of_mem_erase hx)) (e g) he (by
          intro x hx hxc
          obtain ⟨g', hg', a1, a2⟩ := hc x (by linarith) hxc
          refine ⟨g', Finset.mem_erase.mpr ⟨?_, hg'⟩, a1, a2⟩
          rintro rfl; linarith)
      linarith
    · have : 0 ≤ ∑ g ∈ G.erase g, (e g - s g) :=
        Finset.sum_nonneg fun g hg => by linarith [hle g (Finset.mem_of_mem_erase hg)]
      linarith

/-- At most `⌈L / T⌉` points that are `T` apart fit into `(a, a + L]`. -/
theorem spaced_le {α : Type} (G : Finset α) (p : α → ℚ) (T a L : ℚ) (hT : 0 < T)
    (hs : ∀ f ∈ G, ∀ g ∈ G, f ≠ g → p f + T ≤ p g ∨ p g + T ≤ p f)
    (hin : ∀ f ∈ G, a < p f ∧ p f ≤ a + L) (hL : 0 ≤ L) : (G.card : ℤ) ≤ ⌈L / T⌉ := by
  have hc : G.card ≤ (Finset.Icc (1 : ℤ) ⌈L / T⌉).card := by
    apply Finset.card_le_card_of_injOn (fun f => ⌈(p f - a) / T⌉)
    · intro f hf
      obtain ⟨h1, h2⟩ := hin f hf
      simp only [Finset.coe_Icc, Set.mem_Icc]
      constructor
      · have : 0 < ⌈(p f - a) / T⌉ := Int.ceil_pos.mpr (div_pos (by linarith) hT)
        omega
      · exact Int.ceil_le_ceil (div_le_div_of_nonneg_right (by linarith) hT.le)
    · intro f hf g hg hfg
      by_contra hne
      have key : ∀ x y : ℚ, x + T ≤ y → ⌈(x - a) / T⌉ < ⌈(y - a) / T⌉ := by
        intro x y hxy
        have : (x - a) / T + 1 ≤ (y - a) / T := by
          rw [div_add_one hT.ne']
          exact div_le_div_of_nonneg_right (by linarith) hT.le
        have h3 := Int.ceil_le_ceil this
        rw [Int.ceil_add_one] at h3
        omega
      have hfg' : ⌈(p f - a) / T⌉ = ⌈(p g - a) / T⌉ := hfg
      rcases hs f hf g hg hne with h | h
      · have := key _ _ h; omega
      · have := key _ _ h; omega
  have hpos : 0 ≤ ⌈L / T⌉ := Int.ceil_nonneg (div_nonneg hL hT.le)
  rw [Int.card_Icc] at hc
  omega

/-- The same for `[a, a + L)`. -/
theorem spaced_le' {α : Type} (G : Finset α) (p : α → ℚ) (T a L : ℚ) (hT : 0 < T)
    (hs : ∀ f ∈ G, ∀ g ∈ G, f ≠ g → p f + T ≤ p g ∨ p g + T ≤ p f)
    (hin : ∀ f ∈ G, a ≤ p f ∧ p f < a + L) (hL : 0 ≤ L) : (G.card : ℤ) ≤ ⌈L / T⌉ :=
  spaced_le G (fun f => - p f) T (-(a + L)) L hT
    (fun f hf g hg hne => by rcases hs f hf g hg hne with h | h <;> [right; left] <;> linarith)
    (fun f hf => by have := hin f hf; constructor <;> linarith) hL

theorem free_eq (f : Frame n) : f.free b = f.start + (b.transferDelay f.msg + b.interFrameSpace) := by
  unfold Frame.free Frame.done Bus.transferDelay; ring

theorem start_le_free (h : b.Sane) (f : Frame n) : f.start ≤ f.free b := by
  rw [free_eq]
  have := transferDelay_nonneg h f.msg
  have := h.ifs
  linarith

/-- The frames of higher priority in a window take no longer than the analysis assumes. -/
theorem higher_le (h : b.Sane) {F : Finset (Frame n)} (hR : Run b ids F) (i : Fin n) (W a : ℚ) (hW : 0 ≤ W)
    (G : Finset (Frame n)) (hG : G ⊆ F) (hhi : ∀ g ∈ G, ids g.msg < ids i)
    (hwin : (∀ g ∈ G, a < g.rel ∧ g.rel ≤ a + W) ∨ (∀ g ∈ G, a ≤ g.rel ∧ g.rel < a + W)) :
    ∑ g ∈ G, (g.free b - g.start) ≤ b.interDelay ids i (W + b.transferDelay i) := by
  have h1 : ∑ g ∈ G, (g.free b - g.start) =
      ∑ k, ∑ g ∈ G.filter (fun g => g.msg = k), (g.free b - g.start) :=
    (Finset.sum_fiberwise G (fun g => g.msg) _).symm
  rw [h1]
  unfold Bus.interDelay
  apply Finset.sum_le_sum
  intro k _
  by_cases hk : ids k < ids i
  · rw [if_pos hk]
    have h2 : ∑ g ∈ G.filter (fun g => g.msg = k), (g.free b - g.start) =
        ((G.filter (fun g => g.msg = k)).card : ℚ) * (b.transferDelay k + b.interFrameSpace) := by
      rw [Finset.sum_congr rfl (g := fun _ => b.transferDelay k + b.interFrameSpace), Finset.sum_const,
        nsmul_eq_mul]
      intro g hg
      rw [free_eq, (Finset.mem_filter.mp hg).2]; ring
    rw [h2]
    apply mul_le_mul_of_nonneg_right _ (mul_nonneg' h k)
    have hT := h.period k
    have hJ := h.jitter k
    have htau := h.tau
    have hs : ∀ f ∈ G.filter (fun g => g.msg = k), ∀ g ∈ G.filter (fun g => g.msg = k), f ≠ g →
        f.arr + (b.msg k).period ≤ g.arr ∨ g.arr + (b.msg k).period ≤ f.arr := by
      intro f hf g hg hne
      have hf := Finset.mem_filter.mp hf
      have hg := Finset.mem_filter.mp hg
      have := hR.sporadic f (hG hf.1) g (hG hg.1) hne (hf.2.trans hg.2.symm)
      rw [hf.2] at this
      exact this
    have hq : ∀ f ∈ G.filter (fun g => g.msg = k), f.arr ≤ f.rel ∧ f.rel ≤ f.arr + (b.msg k).jitter := by
      intro f hf
      have hf := Finset.mem_filter.mp hf
      have := hR.queued f (hG hf.1)
      rw [hf.2] at this
      exact this
    have hcard : ((G.filter (fun g => g.msg = k)).card : ℤ) ≤ ⌈(W + (b.msg k).jitter) / (b.msg k).period⌉ := by
      rcases hwin with hwin | hwin
      · refine spaced_le _ (fun g => g.arr) _ (a - (b.msg k).jitter) _ hT hs ?_ (by linarith)
        intro f hf
        have h3 := hq f hf
        have h4 := hwin f (Finset.mem_filter.mp hf).1
        constructor <;> linarith
      · refine spaced_le' _ (fun g => g.arr) _ (a - (b.msg k).jitter) _ hT hs ?_ (by linarith)
        intro f hf
        have h3 := hq f hf
        have h4 := hwin f (Finset.mem_filter.mp hf).1
        constructor <;> linarith
    have hmono : ⌈(W + (b.msg k).jitter) / (b.msg k).period⌉ ≤
        ⌈(W + b.transferDelay i - b.transferDelay i + (b.msg k).jitter + b.tau) / (b.msg k).period⌉ :=
      Int.ceil_le_ceil (div_le_div_of_nonneg_right (by linarith) hT.le)
    have := le_trans hcard hmono
    exact_mod_cast this
  · rw [if_neg hk]
    have : G.filter (fun g => g.msg = k) = ∅ := by
      rw [Finset.filter_eq_empty_iff]
      rintro g hg rfl
      exact hk (hhi g hg)
    rw [this]; simp

theorem within_window (h : b.Sane) (hS : 0 < b.interFrameSpace) (hinj : Function.Injective ids) {F : Finset (Frame n)}
    (hR : Run b ids F) (i : Fin n) (w : ℚ) (hCw : b.transferDelay i ≤ w)
    (hfix : w = b.blockingDelay ids i + b.transferDelay i + b.interDelay ids i w)
    (hlow : ∀ k, ids i ≤ ids k → b.transferDelay k + b.interFrameSpace ≤ b.blockingDelay ids i)
    (f : Frame n) (hf : f ∈ F) (hfi : f.msg = i)
    (hprev : ∀ g ∈ F, g.msg = i → g.start < f.start → g.start < f.rel) :
    f.done b ≤ f.rel + w := by
  classical
  -- the bus is not idle from the start of `g` to the start of `f`
  let A := F.filter (fun g => g.start < f.start ∧ ∀ x, g.start ≤ x → x < f.start → ∃ k ∈ F, k.start ≤ x ∧ x < k.free b)
  have hmemA : ∀ g, g ∈ A ↔ g ∈ F ∧ g.start < f.start ∧
      ∀ x, g.start ≤ x → x < f.start → ∃ k ∈ F, k.start ≤ x ∧ x < k.free b := fun g => Finset.mem_filter
  set W := w - b.transferDelay i with hWdef
  have hW0 : 0 ≤ W := by rw [hWdef]; linarith
  have hww : W + b.transferDelay i = w := by rw [hWdef]; ring
  have hdone : f.done b = f.start + b.transferDelay i := by
    unfold Frame.done Bus.transferDelay; rw [hfi]
  have hpos : ∀ g : Frame n, g.start < g.free b := by
    intro g
    rw [free_eq]
    have := transferDelay_nonneg h g.msg
    linarith
  -- frames that start between a member of `A` and `f` are in `A`
  have hup : ∀ g ∈ A, ∀ k ∈ F, g.start ≤ k.start → k.start < f.start → k ∈ A := by
    intro g hg k hk h1 h2
    rw [hmemA] at hg ⊢
    exact ⟨hk, h2, fun x hx hxf => hg.2.2 x (le_trans h1 hx) hxf⟩
  rcases A.eq_empty_or_nonempty with hA | hA
  · -- `f` starts at once
    have : f.start ≤ f.rel := by
      by_contra hlt
      push Not at hlt
      obtain ⟨g, hg, h1, h2⟩ := hR.busy f hf f.rel le_rfl hlt
      have : g ∈ A := by
        rw [hmemA]
        refine ⟨hg, by linarith, ?_⟩
        intro x hx hxf
        by_cases hxr : f.rel ≤ x
        · exact hR.busy f hf x hxr hxf
        · exact ⟨g, hg, hx, by push Not at hxr; linarith⟩
      rw [hA] at this
      simp at this
    rw [hdone]; linarith
  by_cases hlo : ∃ g ∈ A, ids i ≤ ids g.msg
  · -- a frame of the same or of lower priority delays `f`
    obtain ⟨l, hl, hmax⟩ := Finset.exists_max_image (A.filter (fun g => ids i ≤ ids g.msg)) (fun g => g.start)
      (by obtain ⟨g, hg, hgi⟩ := hlo; exact ⟨g, Finset.mem_filter.mpr ⟨hg, hgi⟩⟩)
    obtain ⟨hlA, hli⟩ := Finset.mem_filter.mp hl
    obtain ⟨hlF, hlf, hlbusy⟩ := (hmemA l).mp hlA
    have hrel : l.start < f.rel := by
      by_cases hsame : l.msg = i
      · exact hprev l hlF hsame hlf
      · have : ids i ≠ ids l.msg := fun he => hsame (hinj he).symm
        refine hR.arbitration l hlF f hf ?_ hlf
        rw [hfi]
        exact lt_of_le_of_ne hli this
    have hhi : ∀ g ∈ F, l.start < g.start → g.start < f.start → ids g.msg < ids i := by
      intro g hg h1 h2
      by_contra hge
      push Not at hge
      have hgA := hup l hlA g hg h1.le h2
      have := hmax g (Finset.mem_filter.mpr ⟨hgA, hge⟩)
      linarith
    have hsW : f.start ≤ l.start + W := by
      by_contra hlt
      push Not at hlt
      let G := F.filter (fun g => l.start ≤ g.start ∧ g.start ≤ l.start + W)
      have hlG : l ∈ G := Finset.mem_filter.mpr ⟨hlF, le_rfl, by linarith⟩
      have hcov := cover_lt (fun g : Frame n => g.start) (fun g => g.free b) (l.start + W) G.card G rfl
        (fun g _ => (hpos g).le) l.start (by linarith) (by
          intro x h1 h2
          obtain ⟨g, hg, h3, h4⟩ := hlbusy x h1 (by linarith)
          refine ⟨g, Finset.mem_filter.mpr ⟨hg, ?_, by linarith⟩, h3, h4⟩
          by_contra hgl
          push Not at hgl
          have hne : g ≠ l := by rintro rfl; exact lt_irrefl _ hgl
          rcases hR.exclusive g hg l hlF hne with h5 | h5
          · linarith
          · have := hpos l; linarith)
      rw [← Finset.add_sum_erase G _ hlG] at hcov
      have hgt : ∀ g ∈ G.erase l, g ∈ F ∧ l.start < g.start ∧ g.start ≤ l.start + W := by
        intro g hg
        obtain ⟨hne, hg⟩ := Finset.mem_erase.mp hg
        obtain ⟨hgF, h1, h2⟩ := Finset.mem_filter.mp hg
        refine ⟨hgF, ?_, h2⟩
        rcases hR.exclusive g hgF l hlF hne with h5 | h5
        · have := hpos g; linarith
        · have := hpos l; linarith
      have hsum := higher_le h hR i W l.start hW0 (G.erase l)
        (fun g hg => (hgt g hg).1)
        (fun g hg => hhi g (hgt g hg).1 (hgt g hg).2.1 (by have := (hgt g hg).2.2; linarith))
        (Or.inl (by
          intro g hg
          obtain ⟨h1, h2, h3⟩ := hgt g hg
          have h4 := hhi g h1 h2 (by linarith)
          exact ⟨hR.arbitration l hlF g h1 (lt_of_lt_of_le h4 hli) h2, le_trans (hR.started g h1) h3⟩))
      rw [hww] at hsum
      have hb := hlow l.msg hli
      have hlen : l.free b - l.start = b.transferDelay l.msg + b.interFrameSpace := by rw [free_eq]; ring
      rw [hlen] at hcov
      linarith
    rw [hdone]; linarith
  · -- only frames of higher priority delay `f`
    push Not at hlo
    obtain ⟨e, he, hmin⟩ := Finset.exists_min_image A (fun g => g.start) hA
    obtain ⟨heF, hef, hebusy⟩ := (hmemA e).mp he
    have hrel : ∀ g ∈ F, e.start ≤ g.start → e.start ≤ g.rel := by
      intro g hg hge
      by_contra hlt
      push Not at hlt
      let P := F.filter (fun k => k.start < e.start)
      have hP : P.Nonempty := by
        obtain ⟨k, hk, h1, _⟩ := hR.busy g hg g.rel le_rfl (by linarith)
        exact ⟨k, Finset.mem_filter.mpr ⟨hk, by linarith⟩⟩
      obtain ⟨p, hp, hpmax⟩ := Finset.exists_max_image P (fun k => k.start) hP
      obtain ⟨hpF, hpe⟩ := Finset.mem_filter.mp hp
      have hcov : e.start ≤ p.free b := by
        by_contra hgap
        push Not at hgap
        obtain ⟨q, hq, h1, h2⟩ := hR.busy g hg (max g.rel (p.free b)) (le_max_left _ _)
          (lt_of_lt_of_le (max_lt hlt hgap) hge)
        have hqe : q.start < e.start := lt_of_le_of_lt h1 (max_lt hlt hgap)
        have h3 := hpmax q (Finset.mem_filter.mpr ⟨hq, hqe⟩)
        have h4 : p.free b < q.free b := lt_of_le_of_lt (le_max_right _ _) h2
        have hne : q ≠ p := by rintro rfl; exact lt_irrefl _ h4
        rcases hR.exclusive q hq p hpF hne with h5 | h5
        · have := hpos p; linarith
        · have := hpos p; linarith
      have hpA : p ∈ A := by
        rw [hmemA]
        refine ⟨hpF, by linarith, ?_⟩
        intro x hx hxf
        by_cases hxe : e.start ≤ x
        · exact hebusy x hxe hxf
        · push Not at hxe
          exact ⟨p, hpF, hx, by linarith⟩
      have := hmin p hpA
      linarith
    have hsW : f.start ≤ e.start + W := by
      by_contra hlt
      push Not at hlt
      let G := F.filter (fun g => e.start ≤ g.start ∧ g.start < e.start + W)
      have hcov := cover_le (fun g : Frame n => g.start) (fun g => g.free b) (e.start + W) G.card G rfl
        (fun g _ => (hpos g).le) e.start (by
          intro x h1 h2
          obtain ⟨g, hg, h3, h4⟩ := hebusy x h1 (by linarith)
          refine ⟨g, Finset.mem_filter.mpr ⟨hg, ?_, by linarith⟩, h3, h4⟩
          by_contra hgl
          push Not at hgl
          have hne : g ≠ e := by rintro rfl; exact lt_irrefl _ hgl
          rcases hR.exclusive g hg e heF hne with h5 | h5
          · linarith
          · have := hpos e; linarith)
      have hsum := higher_le h hR i W e.start hW0 G (Finset.filter_subset _ _)
        (fun g hg => by
          obtain ⟨hgF, h1, h2⟩ := Finset.mem_filter.mp hg
          exact hlo g (hup e he g hgF h1 (by linarith)))
        (Or.inr (by
          intro g hg
          obtain ⟨hgF, h1, h2⟩ := Finset.mem_filter.mp hg
          exact ⟨hrel g hgF h1, lt_of_le_of_lt (hR.started g hgF) h2⟩))
      rw [hww] at hsum
      have hb : 0 < b.blockingDelay ids i := by
        have := maxDelay_nonneg (b := b) (fun k => decide (k ≠ i) && decide (ids i < ids k))
        unfold Bus.blockingDelay
        linarith
      linarith
    have := hrel f hf hef.le
    rw [hdone]; linarith

/-- **C63**, partial: the analysis is safe for messages with deadlines up to the period if
some message of lower priority is at least as long (so that the blocking term covers a
previous frame of the message itself), with a positive bit time and space between frames.  Missing: the
messages for which every message of lower priority is shorter, where it is violated. -/
theorem C63_safe_partial (h : b.Sane) (htau : 0 < b.tau) (hS : 0 < b.interFrameSpace) (hinj : Function.Injective ids) (i : Fin n)
    (fuel : ℕ) (w : ℚ) (hw : b.wctt ids fuel i 0 = some w)
    (hd : w + (b.msg i).jitter ≤ (b.msg i).deadline) (hT : (b.msg i).deadline ≤ (b.msg i).period)
    (hlow : ∃ k, ids i < ids k ∧ (b.msg i).framesize ≤ (b.msg k).framesize)
    (F : Finset (Frame n)) (hR : Run b ids F) (f : Frame n) (hf : f ∈ F) (hfi : f.msg = i) :
    f.done b ≤ f.arr + (b.msg i).deadline := by
  classical
  obtain ⟨⟨hCw, hfix⟩, _⟩ := (C44_wctt h i 0 fuel w hw).1 hd
  simp only [Nat.cast_zero, zero_mul, add_zero] at hfix
  have hblock : ∀ k, ids i ≤ ids k → b.transferDelay k + b.interFrameSpace ≤ b.blockingDelay ids i := by
    have hlt : ∀ k, ids i < ids k → b.transferDelay k + b.interFrameSpace ≤ b.blockingDelay ids i := by
      intro k hk
      unfold Bus.blockingDelay
      have : b.transferDelay k ≤ b.maxDelay (fun k => decide (k ≠ i) && decide (ids i < ids k)) := by
        apply le_maxDelay
        have hne : k ≠ i := by rintro rfl; exact lt_irrefl _ hk
        simp [hne, hk]
      linarith
    intro k hk
    rcases hk.lt_or_eq with hk | hk
    · exact hlt k hk
    · have := hinj hk
      subst this
      obtain ⟨l, hl, hlen⟩ := hlow
      have h1 := hlt l hl
      have : b.transferDelay i ≤ b.transferDelay l := by
        unfold Bus.transferDelay
        exact mul_le_mul_of_nonneg_right (by exact_mod_cast hlen) h.tau
      linarith
  -- the first late frame
  have key : ∀ f ∈ F, f.msg = i → f.done b ≤ f.rel + w := by
    by_contra hno
    push Not at hno
    obtain ⟨f0, hf0, hi0, hlate0⟩ := hno
    obtain ⟨f, hf, hmin⟩ := Finset.exists_min_image (F.filter (fun f => f.msg = i ∧ f.rel + w < f.done b))
      (fun f => f.start) ⟨f0, Finset.mem_filter.mpr ⟨hf0, hi0, hlate0⟩⟩
    obtain ⟨hfF, hfi, hlate⟩ := Finset.mem_filter.mp hf
    have := within_window h hS hinj hR i w hCw hfix hblock f hfF hfi (by
      intro g hg hgi hgf
      have hgood : g.done b ≤ g.rel + w := by
        by_contra hbad
        push Not at hbad
        have := hmin g (Finset.mem_filter.mpr ⟨hg, hgi, hbad⟩)
        linarith
      have hne : g ≠ f := by rintro rfl; exact lt_irrefl _ hgf
      have hstep : g.arr + (b.msg i).period ≤ f.arr := by
        rcases hR.sporadic g hg f hfF hne (hgi.trans hfi.symm) with h1 | h1
        · rw [hgi] at h1; exact h1
        · have hp := h.period i
          rw [hgi] at h1
          have := hR.fifo f hfF g hg (hfi.trans hgi.symm) (by linarith)
          linarith
      have hq1 := (hR.queued g hg).2
      have hq2 := (hR.queued f hfF).1
      rw [hgi] at hq1
      have h3 : g.start < g.done b := by
        have : 0 < ((b.msg g.msg).framesize : ℚ) * b.tau := by
          apply mul_pos _ htau
          have : 0 < (b.msg g.msg).framesize := by unfold Msg.framesize; omega
          exact_mod_cast this
        unfold Frame.done
        linarith
      linarith)
    linarith
  have h1 := key f hf hfi
  have h2 := (hR.queued f hf).2
  rw [hfi] at h2
  linarith

example : 0 < pushBus.tau ∧ 0 < pushBus.interFrameSpace ∧
    pushBus.wctt (fun k => (k.val : ℤ)) 10 1 0 = some 402 ∧
    402 + (pushBus.msg 1).jitter ≤ (pushBus.msg 1).deadline ∧ (pushBus.msg 1).deadline ≤ (pushBus.msg 1).period ∧
    (∃ k : Fin 3, (1 : Fin 3).val < k.val ∧ (pushBus.msg 1).framesize ≤ (pushBus.msg k).framesize) ∧
    Run pushBus (fun k => (k.val : ℤ)) pushRun ∧ ∃ f ∈ pushRun, f.msg = 1 :=
  ⟨by decide +kernel, by decide +kernel, by decide +kernel, by decide +kernel, by decide +kernel,
    ⟨2, by decide, by decide⟩, pushRun_run, by decide +kernel⟩

end Verif.Can
