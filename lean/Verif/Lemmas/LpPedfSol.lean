/-
The linear programs of the analysis of partitioned EDF with the MSRP: what their constraints mean.
-/
import Verif.Lemmas.LpPedfAlg
import Verif.Lemmas.LpSpinCount

namespace Verif.SR.Pedf
open Verif.Spec

variable {info : Info} {k t : ℕ} {mode : Mode}

/-! ### Feasibility -/

section
variable {V : Type} {x : V → ℚ} {lp : MixedProgram V}

theorem valueOf_nil : valueOf x [] = 0 := rfl

theorem valueOf_cons (c : ℚ) (v : V) (e : List (ℚ × V)) : valueOf x ((c, v) :: e) = c * x v + valueOf x e := rfl

theorem valueOf_append (e f : List (ℚ × V)) : valueOf x (e ++ f) = valueOf x e + valueOf x f := by
  unfold valueOf
  rw [List.map_append, List.sum_append]

theorem valueOf_flatMap {α : Type} (l : List α) (f : α → List (ℚ × V)) :
    valueOf x (l.flatMap f) = (l.map (fun a => valueOf x (f a))).sum := by
  induction l with
  | nil => rfl
  | cons a l ih => rw [List.flatMap_cons, valueOf_append, ih, List.map_cons, List.sum_cons]

theorem valueOf_map {α : Type} (l : List α) (f : α → V) :
    valueOf x (l.map (fun a => ((1 : ℚ), f a))) = (l.map (fun a => x (f a))).sum := by
  unfold valueOf
  rw [List.map_map]
  congr 1
  apply List.map_congr_left
  intro a _
  simp

theorem feas_add {e : List (ℚ × V)} {b : ℚ} (hb : 0 ≤ b) :
    (addInequality lp e b).Feasible x ↔ lp.Feasible x ∧ valueOf x e ≤ b := by
  unfold addInequality
  cases e with
  | nil => simp [valueOf_nil, hb]
  | cons c e =>
    simp only [List.isEmpty_cons, Bool.false_eq_true, if_false]
    constructor
    · intro h
      refine ⟨⟨fun c' hc => h.le c' (List.mem_append_left _ hc), h.nonneg, h.binary, h.integer⟩, h.le (c :: e, b) ?_⟩
      exact List.mem_append_right _ (List.mem_singleton.2 rfl)
    · rintro ⟨h, h1⟩
      refine ⟨fun c' hc => ?_, h.nonneg, h.binary, h.integer⟩
      rcases List.mem_append.1 hc with hc | hc
      · exact h.le c' hc
      · rw [List.mem_singleton.1 hc]
        exact h1

theorem feas_binary {lp : Program} {x : Var → ℚ} {v : Var} : (declareBinary lp v).Feasible x ↔ lp.Feasible x ∧ (x v = 0 ∨ x v = 1) := by
  unfold declareBinary
  constructor
  · intro h
    exact ⟨⟨h.le, h.nonneg, fun w hw => h.binary w (List.mem_cons_of_mem _ hw), h.integer⟩, h.binary v List.mem_cons_self⟩
  · rintro ⟨h, h1⟩
    refine ⟨h.le, h.nonneg, fun w hw => ?_, h.integer⟩
    rcases List.mem_cons.1 hw with rfl | hw
    · exact h1
    · exact h.binary w hw

theorem feas_foldl {α : Type} {f : MixedProgram V → α → MixedProgram V} {P : α → Prop}
    (hf : ∀ lp a, (f lp a).Feasible x ↔ lp.Feasible x ∧ P a) (l : List α) : ∀ lp,
    (l.foldl f lp).Feasible x ↔ lp.Feasible x ∧ ∀ a ∈ l, P a := by
  induction l with
  | nil => intro lp; simp
  | cons a l ih =>
    intro lp
    rw [List.foldl_cons, ih, hf]
    simp only [List.forall_mem_cons]
    tauto

theorem feas_empty : ({} : MixedProgram V).Feasible x := by
  constructor <;> intro c hc <;> cases hc

end

variable {x : Var → ℚ} {lp : Program}

theorem feas_noArrivalInside : (noArrivalInside info k t lp).Feasible x ↔ lp.Feasible x ∧
    ∀ i ∈ (localIds info k).filter (fun i => i.2.deadline ≤ t), ∀ r ∈ i.2.requests, x (.arrival i.1 r.resId) ≤ 0 := by
  unfold noArrivalInside
  apply feas_foldl
  intro lp i
  apply feas_foldl
  intro lp r
  rw [feas_add le_rfl, valueOf_cons, valueOf_nil]
  simp

theorem feas_noLocalSpin : (noLocalSpin info k lp).Feasible x ↔ lp.Feasible x ∧
    ((localIds info k).map (fun i => (i.2.requests.map (fun r => x (.spin i.1 r.resId))).sum)).sum ≤ 0 := by
  unfold noLocalSpin
  rw [feas_add le_rfl, valueOf_flatMap]
  simp only [valueOf_map]

theorem feas_jointBound : (jointBound info k t lp).Feasible x ↔ lp.Feasible x ∧
    ∀ i ∈ remoteIds info k, ∀ r ∈ i.2.requests,
      x (.arrival i.1 r.resId) + x (.spin i.1 r.resId) ≤ (remoteJobs i.2 t * r.num : ℕ) := by
  unfold jointBound
  apply feas_foldl
  intro lp i
  apply feas_foldl
  intro lp r
  rw [feas_add (Nat.cast_nonneg _), valueOf_cons, valueOf_cons, valueOf_nil]
  simp

theorem feas_atMostArrival {m : ℚ} (hm : 0 ≤ m) : (atMostArrival info m lp).Feasible x ↔
    (lp.Feasible x ∧ ∀ q ∈ Lp.allResources info, x (.enabled q) = 0 ∨ x (.enabled q) = 1) ∧
    ((Lp.allResources info).map (fun q => x (.enabled q))).sum ≤ m := by
  unfold atMostArrival
  rw [feas_add hm, valueOf_map]
  apply and_congr_left'
  apply feas_foldl
  intro lp q
  exact feas_binary

theorem feas_excludeLocal : (excludeLocal info k t lp).Feasible x ↔ lp.Feasible x ∧
    (((Msrp.localResources info).filter (fun q => Msrp.ceilingOf info q ≥ maxLevel info k t)).map
      (fun q => x (.enabled q))).sum ≤ 0 := by
  unfold excludeLocal
  rw [feas_add le_rfl, valueOf_map]

theorem feas_noRequests : (noRequests info k t lp).Feasible x ↔ lp.Feasible x ∧
    ∀ q ∈ Lp.allResources info, (x (.enabled q) = 0 ∨ x (.enabled q) = 1) ∧
      x (.enabled q) ≤ laterRequests info k t q := by
  unfold noRequests
  apply feas_foldl
  intro lp q
  rw [feas_add (Nat.cast_nonneg _), feas_binary, valueOf_cons, valueOf_nil, and_assoc]
  simp

theorem feas_oneLocalRequest : (oneLocalRequest info k lp).Feasible x ↔ lp.Feasible x ∧
    ∀ q ∈ Lp.allResources info, ((localIds info k).map (fun i => x (.arrival i.1 q))).sum ≤ x (.enabled q) := by
  unfold oneLocalRequest
  apply feas_foldl
  intro lp q
  rw [feas_add le_rfl, valueOf_append, valueOf_map, valueOf_cons, valueOf_nil]
  apply and_congr_right'
  constructor <;> intro h <;> linarith

theorem feas_setObjective : (setObjective info lp).Feasible x ↔ lp.Feasible x ∧
    ∀ i ∈ Lp.tasks info, ∀ q ∈ Lp.allResources info, 0 ≤ x (.arrival i.1 q) ∧ 0 ≤ x (.spin i.1 q) := by
  unfold setObjective
  apply feas_foldl
  intro lp i
  apply feas_foldl
  intro lp q
  simp only
  have key : ∀ (lp : Program) o, ({ lp with
      objective := o, nonneg := .arrival i.1 q :: .spin i.1 q :: lp.nonneg } : Program).Feasible x ↔
      lp.Feasible x ∧ 0 ≤ x (.arrival i.1 q) ∧ 0 ≤ x (.spin i.1 q) := by
    intro lp o
    constructor
    · intro h
      refine ⟨⟨h.le, fun v hv => h.nonneg v (List.mem_cons_of_mem _ (List.mem_cons_of_mem _ hv)), h.binary, h.integer⟩,
        h.nonneg _ List.mem_cons_self, h.nonneg _ (List.mem_cons_of_mem _ List.mem_cons_self)⟩
    · rintro ⟨h, h1, h2⟩
      refine ⟨h.le, fun v hv => ?_, h.binary, h.integer⟩
      rcases List.mem_cons.1 hv with rfl | hv
      · exact h1
      rcases List.mem_cons.1 hv with rfl | hv
      · exact h2
      · exact h.nonneg v hv
  split_ifs
  · exact key lp _
  · exact key lp lp.objective

theorem feas_oneSpinPerProcessor : (oneSpinPerProcessor info mode k t lp).Feasible x ↔ lp.Feasible x ∧
    ∀ c ∈ otherClusters info k, ∀ q ∈ Lp.allResources info, ((localIds info c).map (fun i => x (.spin i.1 q))).sum ≤
      (((localTasks info k).map (fun ti => localJobs mode ti t * Lp.numRequests ti q)).sum : ℕ) := by
  unfold oneSpinPerProcessor
  apply feas_foldl
  intro lp c
  apply feas_foldl
  intro lp q
  rw [feas_add (Nat.cast_nonneg _), valueOf_map]

theorem feas_spinPerTask : (spinPerTask info k t lp).Feasible x ↔ lp.Feasible x ∧
    ∀ i ∈ remoteIds info k, ∀ q ∈ Lp.allResources info, x (.spin i.1 q) ≤
      (((localTasks info k).map (fun ti => remoteJobs ti i.2.deadline * Lp.numRequests ti q * remoteJobs i.2 t)).sum : ℕ) := by
  unfold spinPerTask
  apply feas_foldl
  intro lp i
  apply feas_foldl
  intro lp q
  rw [feas_add (Nat.cast_nonneg _), valueOf_cons, valueOf_nil]
  simp

theorem feas_oneArrivalPerProcessor : (oneArrivalPerProcessor info k lp).Feasible x ↔ lp.Feasible x ∧
    ∀ c ∈ otherClusters info k, ∀ q ∈ Lp.allResources info,
      ((localIds info c).map (fun i => x (.arrival i.1 q))).sum ≤ x (.enabled q) := by
  unfold oneArrivalPerProcessor
  apply feas_foldl
  intro lp c
  apply feas_foldl
  intro lp q
  rw [feas_add le_rfl, valueOf_append, valueOf_map, valueOf_cons, valueOf_nil]
  apply and_congr_right'
  constructor <;> intro h <;> linarith

/-- What the constraints of the program mean. -/
structure Constraints (info : Info) (mode : Mode) (k t : ℕ) (x : Var → ℚ) : Prop where
  inside : ∀ i ∈ (localIds info k).filter (fun i => i.2.deadline ≤ t), ∀ r ∈ i.2.requests, x (.arrival i.1 r.resId) ≤ 0
  noSpin : ((localIds info k).map (fun i => (i.2.requests.map (fun r => x (.spin i.1 r.resId))).sum)).sum ≤ 0
  joint : ∀ i ∈ remoteIds info k, ∀ r ∈ i.2.requests,
    x (.arrival i.1 r.resId) + x (.spin i.1 r.resId) ≤ (remoteJobs i.2 t * r.num : ℕ)
  arrivals : ((Lp.allResources info).map (fun q => x (.enabled q))).sum ≤ Pedf.arrivals mode
  later : ∀ q ∈ Lp.allResources info, (x (.enabled q) = 0 ∨ x (.enabled q) = 1) ∧
    x (.enabled q) ≤ laterRequests info k t q
  oneLocal : ∀ q ∈ Lp.allResources info, ((localIds info k).map (fun i => x (.arrival i.1 q))).sum ≤ x (.enabled q)
  exclude : (((Msrp.localResources info).filter (fun q => Msrp.ceilingOf info q ≥ maxLevel info k t)).map
    (fun q => x (.enabled q))).sum ≤ 0
  nonneg : ∀ i ∈ Lp.tasks info, ∀ q ∈ Lp.allResources info, 0 ≤ x (.arrival i.1 q) ∧ 0 ≤ x (.spin i.1 q)
  spin : ∀ c ∈ otherClusters info k, ∀ q ∈ Lp.allResources info, ((localIds info c).map (fun i => x (.spin i.1 q))).sum ≤
    (((localTasks info k).map (fun ti => localJobs mode ti t * Lp.numRequests ti q)).sum : ℕ)
  perTask : ∀ i ∈ remoteIds info k, ∀ q ∈ Lp.allResources info, x (.spin i.1 q) ≤
    (((localTasks info k).map (fun ti => remoteJobs ti i.2.deadline * Lp.numRequests ti q * remoteJobs i.2 t)).sum : ℕ)
  oneRemote : ∀ c ∈ otherClusters info k, ∀ q ∈ Lp.allResources info,
    ((localIds info c).map (fun i => x (.arrival i.1 q))).sum ≤ x (.enabled q)

theorem feasible_iff : (msrpProgram info mode k t).Feasible x ↔ Constraints info mode k t x := by
  unfold msrpProgram commonProgram
  have e0 : 0 ≤ arrivals mode := by cases mode <;> simp [arrivals]
  rw [feas_oneArrivalPerProcessor, feas_spinPerTask, feas_oneSpinPerProcessor, feas_setObjective, feas_excludeLocal,
    feas_oneLocalRequest, feas_noRequests, feas_atMostArrival e0, feas_jointBound, feas_noLocalSpin, feas_noArrivalInside]
  constructor
  · rintro ⟨⟨⟨⟨⟨⟨⟨⟨⟨⟨⟨⟨_, h1⟩, h2⟩, h3⟩, _⟩, h4⟩, h5⟩, h6⟩, h7⟩, h8⟩, h9⟩, h10⟩, h11⟩
    exact ⟨h1, h2, h3, h4, h5, h6, h7, h8, h9, h10, h11⟩
  · rintro ⟨h1, h2, h3, h4, h5, h6, h7, h8, h9, h10, h11⟩
    exact ⟨⟨⟨⟨⟨⟨⟨⟨⟨⟨⟨⟨feas_empty, h1⟩, h2⟩, h3⟩, fun q hq => (h5 q hq).1⟩, h4⟩, h5⟩, h6⟩, h7⟩, h8⟩, h9⟩, h10⟩, h11⟩

/-- No blocking at all satisfies the constraints. -/
theorem zero_feasible : (msrpProgram info mode k t).Feasible (fun _ => 0) := by
  rw [feasible_iff]
  have hz : ∀ {α : Type} (l : List α), (l.map (fun _ => (0 : ℚ))).sum = 0 := fun l => by simp
  refine ⟨fun _ _ _ _ => le_rfl, ?_, fun _ _ _ _ => by simp only [add_zero]; exact Nat.cast_nonneg _, ?_,
    fun _ _ => ⟨Or.inl rfl, Nat.cast_nonneg _⟩, fun _ _ => (hz _).le, (hz _).le, fun _ _ _ _ => ⟨le_rfl, le_rfl⟩,
    fun _ _ _ _ => (hz _).le.trans (Nat.cast_nonneg _), fun _ _ _ _ => Nat.cast_nonneg _, fun _ _ _ _ => (hz _).le⟩
  · simp only [hz]
    exact le_rfl
  · rw [hz]
    cases mode <;> simp [Pedf.arrivals]

/-! ### The objective -/

theorem objective_add (e : List (ℚ × Var)) (b : ℚ) : (addInequality lp e b).objective = lp.objective := by
  unfold addInequality
  split_ifs <;> rfl

theorem objective_foldl {α : Type} {f : Program → α → Program} (hf : ∀ lp a, (f lp a).objective = lp.objective)
    (l : List α) : ∀ lp, (l.foldl f lp).objective = lp.objective := by
  induction l with
  | nil => intro lp; rfl
  | cons a l ih => intro lp; rw [List.foldl_cons, ih, hf]

theorem objective_foldl_append {α : Type} {f : Program → α → Program} {g : α → List (ℚ × Var)}
    (hf : ∀ lp a, (f lp a).objective = lp.objective ++ g a) (l : List α) : ∀ lp,
    (l.foldl f lp).objective = lp.objective ++ l.flatMap g := by
  induction l with
  | nil => intro lp; simp
  | cons a l ih => intro lp; rw [List.foldl_cons, ih, hf, List.flatMap_cons, List.append_assoc]

theorem objective_common : (commonProgram info mode k t).objective =
    (Lp.tasks info).flatMap (fun i => (Lp.allResources info).flatMap (fun q =>
      if requestLength i.2 q > 0 then [((requestLength i.2 q : ℚ), .spin i.1 q),
          ((requestLength i.2 q : ℚ), .arrival i.1 q)] else [])) := by
  unfold commonProgram setObjective
  rw [objective_foldl_append (g := fun i => (Lp.allResources info).flatMap (fun q =>
      if requestLength i.2 q > 0 then [((requestLength i.2 q : ℚ), .spin i.1 q),
          ((requestLength i.2 q : ℚ), .arrival i.1 q)] else []))]
  · have : (excludeLocal info k t (oneLocalRequest info k (noRequests info k t
        (atMostArrival info (arrivals mode)
          (jointBound info k t (noLocalSpin info k (noArrivalInside info k t {}))))))).objective = [] := by
      unfold excludeLocal
      rw [objective_add]
      unfold oneLocalRequest
      rw [objective_foldl (fun lp q => objective_add _ _)]
      unfold noRequests
      rw [objective_foldl (fun lp q => by rw [objective_add]; rfl)]
      unfold atMostArrival
      rw [objective_add, objective_foldl (f := fun lp q => declareBinary lp (.enabled q)) (fun lp q => rfl)]
      unfold jointBound
      rw [objective_foldl (fun lp q => objective_foldl (fun lp q => objective_add _ _) _ _)]
      unfold noLocalSpin
      rw [objective_add]
      unfold noArrivalInside
      rw [objective_foldl (fun lp q => objective_foldl (fun lp q => objective_add _ _) _ _)]
    rw [this]
    rfl
  · intro lp i
    apply objective_foldl_append
    intro lp q
    simp only
    split_ifs
    · rfl
    · simp

theorem objective_eq : valueOf x (msrpProgram info mode k t).objective =
    ((Lp.tasks info).map (fun i => ((Lp.allResources info).map (fun q =>
      (requestLength i.2 q : ℚ) * (x (.spin i.1 q) + x (.arrival i.1 q)))).sum)).sum := by
  have : (msrpProgram info mode k t).objective = (commonProgram info mode k t).objective := by
    unfold msrpProgram oneArrivalPerProcessor spinPerTask oneSpinPerProcessor
    rw [objective_foldl (fun lp q => objective_foldl (fun lp q => objective_add _ _) _ _),
      objective_foldl (fun lp q => objective_foldl (fun lp q => objective_add _ _) _ _),
      objective_foldl (fun lp q => objective_foldl (fun lp q => objective_add _ _) _ _)]
  rw [this, objective_common, valueOf_flatMap]
  congr 1
  apply List.map_congr_left
  intro i _
  rw [valueOf_flatMap]
  congr 1
  apply List.map_congr_left
  intro q _
  split_ifs with h
  · rw [valueOf_cons, valueOf_cons, valueOf_nil]
    ring
  · have : requestLength i.2 q = 0 := by omega
    rw [this, valueOf_nil]
    simp

end Verif.SR.Pedf
