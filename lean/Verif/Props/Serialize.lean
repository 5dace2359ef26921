/-
C33, C77: storing tasks, task sets and test points (`schedcat/model/serialize.py`).
-/
import Verif.Model.Serialize
import Mathlib.Tactic.NormNum

namespace Verif.Ser

/-! ### Single values -/

/-- Integers of at most 53 bits and texts that are not numbers. -/
def Plain (v : Val) : Prop := (∃ z : ℤ, v = .int z ∧ z.natAbs ≤ 2 ^ 53) ∨ ∃ s, v = .str (.word s)

theorem Plain.read {v : Val} (h : Plain v) : maybeIntT v.text = v := by
  rcases h with ⟨z, rfl, hz⟩ | ⟨s, rfl⟩
  · rw [Val.text, maybeIntT, toDouble]
    simp only [if_pos hz]
  · rfl

theorem Plain.eqv_iff {a b : Val} (ha : Plain a) (hb : Plain b) : a.eqv b = decide (a = b) := by
  rcases ha with ⟨z, rfl, -⟩ | ⟨s, rfl⟩ <;> rcases hb with ⟨y, rfl, -⟩ | ⟨r, rfl⟩ <;>
    simp [Val.eqv, Val.num]

theorem Plain.ne_null {v : Val} (h : Plain v) : v ≠ .null := by
  rcases h with ⟨z, rfl, -⟩ | ⟨s, rfl⟩ <;> simp

/-! ### Elements -/

theorem findall_elems (name : String) (es : List Elem) :
    (elems es).findall name = es.filter (fun e => decide (e.tag = name)) := by
  induction es with
  | nil => rfl
  | cons e es ih =>
    rw [elems, Xml.findall, ih, List.filter_cons]
    by_cases h : e.tag = name
    · rw [if_pos h, if_pos (by simpa using h)]
    · rw [if_neg h, if_neg (by simpa using h)]

theorem find_elems (name : String) (es : List Elem) :
    (elems es).find name = es.find? (fun e => decide (e.tag = name)) := by
  unfold Xml.find
  rw [findall_elems, List.head?_filter]

/-! ### Resource requirements -/

/-- A requirement that is restored: integral limits and the default priority. -/
structure PlainReq (r : Req) : Prop where
  resId : Plain r.resId
  writes : ∃ z, r.writes = .int z
  writeLength : ∃ z, r.writeLength = .int z
  reads : ∃ z, r.reads = .int z
  readLength : ∃ z, r.readLength = .int z
  priority : r.priority = .int 0

theorem parse_request {r : Req} (h : PlainReq r) : parseRequest (resRequirement r) = some r := by
  obtain ⟨h1, ⟨a, h2⟩, ⟨b, h3⟩, ⟨c, h4⟩, ⟨d, h5⟩, h6⟩ := h
  obtain ⟨id, w, wl, rd, rl, p⟩ := r
  simp only at h1 h2 h3 h4 h5 h6
  subst h2 h3 h4 h5 h6
  have e : getMaybe (resRequirement ⟨id, .int a, .int b, .int c, .int d, .int 0⟩) "res_id" 0 = id := by
    simp [getMaybe, resRequirement, Elem.get, List.lookup, h1.read]
  unfold parseRequest
  rw [e]
  simp [resRequirement, getInt, Elem.get, List.lookup, Val.text, pyInt]

theorem mapM_parse (l : List (Val × Req)) (h : ∀ p ∈ l, PlainReq p.2) :
    (l.map (fun p => resRequirement p.2)).mapM parseRequest = some (l.map Prod.snd) := by
  induction l with
  | nil => rfl
  | cons p l ih =>
    rw [List.map_cons, List.mapM_cons, parse_request (h p (by simp)),
      ih (fun q hq => h q (by simp [hq]))]
    rfl

theorem fold_dict (l : List (Val × Req)) : ∀ d : List (Val × Req),
    (∀ p ∈ d ++ l, p.1 = p.2.resId ∧ Plain p.1) → (d ++ l).Pairwise (fun p q => p.1 ≠ q.1) →
    (l.map Prod.snd).foldl (fun d r => dictSet d r.resId r) d = d ++ l := by
  induction l with
  | nil => intro d _ _; simp
  | cons p l ih =>
    intro d h hd
    rw [List.map_cons, List.foldl_cons]
    have hp := h p (by simp)
    have e : dictSet d p.2.resId p.2 = d ++ [p] := by
      unfold dictSet
      rw [if_neg, ← hp.1]
      rw [Bool.not_eq_true, List.any_eq_false]
      intro q hq
      have hq' := h q (by simp [hq])
      rw [← hp.1, Plain.eqv_iff hq'.2 hp.2]
      rw [List.pairwise_append] at hd
      simpa using hd.2.2 q hq p (by simp)
    rw [e, ih (d ++ [p]) (by simpa using h) (by simpa using hd)]
    simp

/-! ### Affinity -/

theorem fold_affinity (l : List Val) : ∀ s : List Val, (∀ v ∈ s ++ l, Plain v) → (s ++ l).Nodup →
    (l.map cpuElem).foldl addCpu s = s ++ l := by
  induction l with
  | nil => intro s _ _; simp
  | cons v l ih =>
    intro s h hd
    have hv := h v (by simp)
    rw [List.map_cons, List.foldl_cons]
    have e : setAdd s v = s ++ [v] := by
      unfold setAdd
      rw [if_neg]
      rw [Bool.not_eq_true, List.any_eq_false]
      intro q hq
      rw [Plain.eqv_iff (h q (by simp [hq])) hv]
      rw [List.nodup_append] at hd
      simpa using hd.2.2 q hq v (by simp)
    have e' : addCpu s (cpuElem v) = s ++ [v] := by
      simp only [addCpu, cpuElem, Elem.get, List.lookup, beq_self_eq_true]
      rw [hv.read, e]
    rw [e', ih (s ++ [v]) (by simpa using h) (by simpa using hd)]
    simp

/-! ### Critical sections -/

/-- Sections that are restored: plain attributes, and no section asks for a resource
that an enclosing section (or one of `held`) has already locked. -/
def PlainSecs (held : List Val) : Secs → Prop
  | .nil => True
  | .cons res length nested rest =>
    Plain res ∧ Plain length ∧ res ∉ held ∧ PlainSecs (res :: held) nested ∧ PlainSecs held rest

theorem parse_secs (s : Secs) : ∀ held : List Val, (∀ h ∈ held, Plain h) → PlainSecs held s →
    parseCs held (nestedResRequirements s) = some s := by
  induction s with
  | nil => intro held _ _; rfl
  | cons res length nested rest ih1 ih2 =>
    rintro held hh ⟨h1, h2, h3, h4, h5⟩
    rw [nestedResRequirements, parseCs]
    have e1 : attrMaybe [("res_id", res.text), ("length", length.text)] "res_id" = res := by
      simp [attrMaybe, List.lookup, h1.read]
    have e2 : attrMaybe [("res_id", res.text), ("length", length.text)] "length" = length := by
      simp [attrMaybe, List.lookup, h2.read]
    rw [e1, e2, if_neg, ih1 (res :: held) (by simpa using ⟨h1, hh⟩) h4, ih2 held hh h5]
    rw [Bool.not_eq_true, List.any_eq_false]
    intro h hm
    rw [Plain.eqv_iff (hh h hm) h1]
    have : h ≠ res := fun e => h3 (e ▸ hm)
    simpa using this

theorem findall_secs (s : Secs) :
    elems ((nestedResRequirements s).findall "critical_section") = nestedResRequirements s := by
  induction s with
  | nil => rfl
  | cons res length nested rest _ ih =>
    rw [nestedResRequirements, Xml.findall, if_pos rfl, elems, ih]

/-! ### Tasks -/

/-- Tasks that can be stored without loss. -/
structure PlainTask (t : Task) : Prop where
  cost : Plain t.cost
  period : Plain t.period
  deadline : Plain t.deadline
  id : t.id = .null ∨ Plain t.id
  partition : ∀ v ∈ t.partition, Plain v
  /-- there is no response-time bound -/
  responseTime : t.responseTime = none
  wss : ∀ v ∈ t.wss, Plain v
  /-- the keys are the different resource ids of the requirements -/
  resmodel : ∀ m ∈ t.resmodel, (∀ p ∈ m, p.1 = p.2.resId ∧ PlainReq p.2) ∧
    m.Pairwise (fun p q => p.1 ≠ q.1)
  /-- the set of processors is not empty -/
  affinity : ∀ a ∈ t.affinity, a ≠ [] ∧ a.Nodup ∧ ∀ v ∈ a, Plain v
  sections : ∀ s ∈ t.sections, PlainSecs [] s

theorem resources_child (t : Task) : (task t).children.find "resources" =
    t.resmodel.map (fun m => ⟨"resources", [], elems (m.map (fun p => resRequirement p.2))⟩) := by
  unfold task
  rw [find_elems]
  unfold taskChildren
  cases t.resmodel <;> cases t.affinity <;> cases t.sections <;> simp

theorem affinity_child (t : Task) : (task t).children.find "affinity" =
    t.affinity.map (fun a => ⟨"affinity", [], elems (a.map cpuElem)⟩) := by
  unfold task
  rw [find_elems]
  unfold taskChildren
  cases t.resmodel <;> cases t.affinity <;> cases t.sections <;> simp

theorem sections_child (t : Task) : (task t).children.find "critical_sections" =
    t.sections.map (fun s => ⟨"critical_sections", [], nestedResRequirements s⟩) := by
  unfold task
  rw [find_elems]
  unfold taskChildren
  cases t.resmodel <;> cases t.affinity <;> cases t.sections <;> simp

theorem parse_resmodel {t : Task} (h : PlainTask t) : parseResmodel (task t) = some t.resmodel := by
  unfold parseResmodel
  rw [resources_child]
  cases hm : t.resmodel with
  | none => rfl
  | some m =>
    obtain ⟨h1, h2⟩ := h.resmodel m (by simp [hm])
    simp only [Option.map_some]
    rw [findall_elems, List.filter_eq_self.2, mapM_parse m (fun p hp => (h1 p hp).2)]
    · rw [Option.map_some, fold_dict m []]
      · simp
      · intro p hp
        have := h1 p (by simpa using hp)
        exact ⟨this.1, this.1 ▸ this.2.resId⟩
      · simpa using h2
    · intro e he
      obtain ⟨p, -, rfl⟩ := List.mem_map.1 he
      simp [resRequirement]

theorem parse_affinity {t : Task} (h : PlainTask t) :
    keepAffinity (parseAffinity (task t)) = t.affinity := by
  unfold parseAffinity
  rw [affinity_child]
  cases ha : t.affinity with
  | none => rfl
  | some a =>
    obtain ⟨h1, h2, h3⟩ := h.affinity a (by simp [ha])
    simp only [Option.map_some]
    rw [findall_elems, List.filter_eq_self.2, fold_affinity a [] (by simpa using h3) (by simpa using h2)]
    · cases a with
      | nil => exact absurd rfl h1
      | cons v a => rfl
    · intro e he
      obtain ⟨p, -, rfl⟩ := List.mem_map.1 he
      simp [cpuElem]

theorem parse_sections {t : Task} (h : PlainTask t) :
    parseCriticalSections (task t) = some t.sections := by
  unfold parseCriticalSections
  rw [sections_child]
  cases hs : t.sections with
  | none => rfl
  | some s =>
    simp only [Option.map_some]
    rw [findall_secs, parse_secs s [] (by simp) (h.sections s (by simp [hs]))]
    rfl

theorem optional_read {v : Option Val} (h : ∀ x ∈ v, Plain x) :
    (v.map Val.text).map maybeIntT = v := by
  cases v with
  | none => rfl
  | some x => simp [(h x (by simp)).read]

theorem lookups (t : Task) :
    (task t).get "wcet" = some t.cost.text ∧ (task t).get "period" = some t.period.text ∧
    (task t).get "deadline" = (if t.implicitDeadline then none else some t.deadline.text) ∧
    (task t).get "id" = (if t.id = .null then none else some t.id.text) ∧
    (task t).get "partition" = t.partition.map Val.text ∧
    (task t).get "wss" = t.wss.map Val.text := by
  unfold Elem.get task taskAttrs setAttribute
  by_cases h1 : t.id = .null <;> by_cases h2 : t.implicitDeadline = true <;>
    cases t.partition <;> cases t.responseTime <;> cases t.wss <;> simp [h1, h2, List.lookup]

/-- **C33**: a task without response-time bound, with integral parameters below
`2^53`, requirements of default priority, a non-empty affinity and sections that are
not re-entrant is restored exactly. -/
theorem C33_task_partial (t : Task) (h : PlainTask t) : parseTask (task t) = some t := by
  unfold parseTask
  rw [parse_resmodel h, parse_sections h, parse_affinity h]
  obtain ⟨l1, l2, l3, l4, l5, l6⟩ := lookups t
  simp only [getRequired, getAttribute, l1, l2, l3, l4, l5, l6, optional_read h.partition,
    optional_read h.wss, Option.map_some, Option.getD_some, h.cost.read, h.period.read]
  have e1 : (Option.map maybeIntT (if t.implicitDeadline = true then none
      else some t.deadline.text)).getD t.period = t.deadline := by
    split_ifs with hi
    · unfold Task.implicitDeadline at hi
      rw [Plain.eqv_iff h.deadline h.period] at hi
      simpa using (of_decide_eq_true hi).symm
    · simp [h.deadline.read]
  have e2 : (Option.map maybeIntT (if t.id = Val.null then none else some t.id.text)).getD .null = t.id := by
    rcases h.id with hid | hid
    · simp [hid]
    · simp [hid.ne_null, hid.read]
  rw [e1, e2, ← h.responseTime]

/-- A task with all attributes. -/
def demo : Task :=
  { cost := .int 3, period := .int 10, deadline := .int 8, id := .str (.word "T1")
    partition := some (.int 2), wss := some (.int 64)
    resmodel := some [(.int 1, ⟨.int 1, .int 2, .int 5, .int 0, .int 0, .int 0⟩),
      (.int 7, ⟨.int 7, .int 0, .int 0, .int 4, .int 9, .int 0⟩)]
    affinity := some [.int 0, .int 3]
    sections := some (.cons (.int 1) (.int 4) (.cons (.int 2) (.int 1) .nil .nil)
      (.cons (.int 2) (.int 3) .nil .nil)) }

theorem plain_int (z : ℤ) (h : z.natAbs ≤ 2 ^ 53) : Plain (.int z) := Or.inl ⟨z, rfl, h⟩

/-- Non-vacuity. -/
example : PlainTask demo where
  cost := plain_int _ (by decide)
  period := plain_int _ (by decide)
  deadline := plain_int _ (by decide)
  id := Or.inr (Or.inr ⟨_, rfl⟩)
  partition := by
    intro v hv
    obtain rfl : Val.int 2 = v := by simpa [demo] using hv
    exact plain_int _ (by decide)
  responseTime := rfl
  wss := by
    intro v hv
    obtain rfl : Val.int 64 = v := by simpa [demo] using hv
    exact plain_int _ (by decide)
  resmodel := by
    intro m hm
    obtain rfl := Option.some.inj (show some _ = some m from hm)
    refine ⟨?_, by simp⟩
    intro p hp
    simp only [List.mem_cons, List.not_mem_nil, or_false] at hp
    rcases hp with rfl | rfl
    · exact ⟨rfl, plain_int _ (by decide), ⟨_, rfl⟩, ⟨_, rfl⟩, ⟨_, rfl⟩, ⟨_, rfl⟩, rfl⟩
    · exact ⟨rfl, plain_int _ (by decide), ⟨_, rfl⟩, ⟨_, rfl⟩, ⟨_, rfl⟩, ⟨_, rfl⟩, rfl⟩
  affinity := by
    intro a ha
    obtain rfl := Option.some.inj (show some _ = some a from ha)
    refine ⟨by simp, by simp, ?_⟩
    intro v hv
    simp only [List.mem_cons, List.not_mem_nil, or_false] at hv
    rcases hv with rfl | rfl <;> exact plain_int _ (by decide)
  sections := by
    intro s hs
    obtain rfl := Option.some.inj (show some _ = some s from hs)
    have p1 := plain_int 1 (by decide)
    have p2 := plain_int 2 (by decide)
    have p3 := plain_int 3 (by decide)
    have p4 := plain_int 4 (by decide)
    simp [PlainSecs, p1, p2, p3, p4]

/-- **C33 is violated**: (1) response-time bounds are written but not read; (2) the
priority of a requirement is lost; (3) an empty affinity is lost; (4) integers above
`2^53` change; (5) numbers slightly above an integer change; (6) a text that is a
number becomes a number. -/
theorem C33_violated :
    (∃ t t', t.responseTime = some (.int 4) ∧ parseTask (task t) = some t' ∧ t'.responseTime = none) ∧
    (∃ t t' r, t.resmodel = some [(.int 1, r)] ∧ r.priority = .int (-5) ∧
      parseTask (task t) = some t' ∧ t'.resmodel = some [(.int 1, { r with priority := .int 0 })]) ∧
    (∃ t t', t.affinity = some [] ∧ parseTask (task t) = some t' ∧ t'.affinity = none) ∧
    (∃ t t', t.period = .int 9007199254740993 ∧ parseTask (task t) = some t' ∧
      t'.period = .int 9007199254740992) ∧
    (∃ t t', t.cost = .flt (200000001 / 100000000) ∧ parseTask (task t) = some t' ∧ t'.cost = .int 2) ∧
    (∃ t t', t.id = .str (.int 7) ∧ parseTask (task t) = some t' ∧ t'.id = .int 7) := by
  let p : Task := ⟨.int 3, .int 10, .int 8, .null, none, none, none, none, none, none⟩
  refine ⟨⟨{ p with responseTime := some (.int 4) }, p, ?_⟩,
    ⟨{ p with resmodel := some [(.int 1, ⟨.int 1, .int 2, .int 5, .int 0, .int 0, .int (-5)⟩)] },
     { p with resmodel := some [(.int 1, ⟨.int 1, .int 2, .int 5, .int 0, .int 0, .int 0⟩)] },
     ⟨.int 1, .int 2, .int 5, .int 0, .int 0, .int (-5)⟩, ?_⟩,
    ⟨{ p with affinity := some [] }, p, ?_⟩,
    ⟨{ p with period := .int 9007199254740993 }, { p with period := .int 9007199254740992 }, ?_⟩,
    ⟨{ p with cost := .flt (200000001 / 100000000) }, { p with cost := .int 2 }, ?_⟩,
    ⟨{ p with id := .str (.int 7) }, { p with id := .int 7 }, ?_⟩⟩ <;> decide +kernel

/-- **C77 is violated**: what can be written cannot always be read.  A request with a
fractional length raises a `ValueError`, a section that was added as re-entrant fails
an assertion. -/
theorem C77_violated :
    (∃ t r, t.resmodel = some [(.int 1, r)] ∧ r.writeLength = .flt (5 / 2) ∧
      parseTask (task t) = none) ∧
    (∃ t, t.sections = some (.cons (.int 1) (.int 4) (.cons (.int 1) (.int 1) .nil .nil) .nil) ∧
      parseTask (task t) = none) := by
  let p : Task := ⟨.int 3, .int 10, .int 8, .null, none, none, none, none, none, none⟩
  refine ⟨⟨{ p with resmodel := some [(.int 1, ⟨.int 1, .int 2, .flt (5 / 2), .int 0, .int 0, .int 0⟩)] },
     ⟨.int 1, .int 2, .flt (5 / 2), .int 0, .int 0, .int 0⟩, ?_⟩,
    ⟨{ p with sections := some (.cons (.int 1) (.int 4) (.cons (.int 1) (.int 1) .nil .nil) .nil) }, ?_⟩⟩ <;>
    decide +kernel

/-! ### Task sets -/

theorem mapM_tasks (ts : List Task) (h : ∀ t ∈ ts, PlainTask t) :
    (ts.map task).mapM parseTask = some ts := by
  induction ts with
  | nil => rfl
  | cons t ts ih =>
    rw [List.map_cons, List.mapM_cons, C33_task_partial t (h t (by simp)),
      ih (fun q hq => h q (by simp [hq]))]
    rfl

theorem parse_taskset {ts : List Task} (h : ∀ t ∈ ts, PlainTask t) {e : Elem}
    (he : taskset ts = some e) : e.tag = "taskset" ∧ parseTaskset e = some ts := by
  unfold taskset at he
  split_ifs at he
  obtain rfl := Option.some.inj he
  refine ⟨rfl, ?_⟩
  unfold parseTaskset
  rw [findall_elems, List.filter_cons, if_neg (by simp), List.filter_eq_self.2, mapM_tasks ts h]
  intro e he
  obtain ⟨t, -, rfl⟩ := List.mem_map.1 he
  simp [task]

/-- **C33**: a task set that can be written is loaded with the same tasks in the same
order. -/
theorem C33_taskset_partial (ts : List Task) (h : ∀ t ∈ ts, PlainTask t) (e : Elem)
    (he : taskset ts = some e) : load e = some (.taskset ts) := by
  obtain ⟨h1, h2⟩ := parse_taskset h he
  unfold load
  rw [if_pos h1, h2]
  rfl

/-- **C77**: task sets with integral, non-negative parameters can be written iff all
periods and deadlines are positive. -/
theorem C77_taskset_partial (ts : List Task)
    (h : ∀ t ∈ ts, ∃ c p d : ℤ, t.cost = .int c ∧ t.period = .int p ∧ t.deadline = .int d ∧
      0 ≤ p ∧ 0 ≤ d) : (taskset ts).isSome = true ↔
      ∀ t ∈ ts, t.period ≠ .int 0 ∧ t.deadline ≠ .int 0 := by
  unfold taskset
  have key : ts.all propertiesOk = true ↔ ∀ t ∈ ts, t.period ≠ .int 0 ∧ t.deadline ≠ .int 0 := by
    rw [List.all_eq_true]
    apply forall₂_congr
    intro t ht
    obtain ⟨c, p, d, h1, h2, h3, hp, hd⟩ := h t ht
    unfold propertiesOk
    rw [h1, h2, h3]
    simp only [Bool.and_eq_true, decide_eq_true_eq, ne_eq, Val.int.injEq]
    omega
  rw [← key]
  split_ifs with hc
  · simp [hc]
  · simp [hc]

/-- **C77 is violated** for sets with a fractional parameter: the exact utilization in
the properties of the set cannot be computed. -/
theorem C77_taskset_violated (t : Task) (q : ℚ) (h : t.cost = .flt q) (ts : List Task) (ht : t ∈ ts) :
    taskset ts = none := by
  unfold taskset
  rw [if_neg]
  intro hall
  have := List.all_eq_true.1 hall t ht
  unfold propertiesOk at this
  rw [h] at this
  simp at this

theorem mapM_sets {tss : List (List Task)} (h : ∀ ts ∈ tss, ∀ t ∈ ts, PlainTask t) :
    ∀ {es : List Elem}, tss.mapM taskset = some es →
    (∀ e ∈ es, e.tag = "taskset") ∧ es.mapM parseTaskset = some tss := by
  induction tss with
  | nil =>
    intro es he
    obtain rfl : es = [] := by simpa using he.symm
    simp
  | cons ts tss ih =>
    intro es he
    rw [List.mapM_cons] at he
    cases h1 : taskset ts with
    | none => rw [h1] at he; simp at he
    | some e =>
      cases h2 : tss.mapM taskset with
      | none => rw [h1, h2] at he; simp at he
      | some es' =>
        rw [h1, h2] at he
        obtain rfl : es = e :: es' := by simpa using he.symm
        obtain ⟨h3, h4⟩ := ih (fun t ht => h t (by simp [ht])) h2
        obtain ⟨h5, h6⟩ := parse_taskset (h ts (by simp)) h1
        refine ⟨by simpa using ⟨h5, h3⟩, ?_⟩
        rw [List.mapM_cons, h6, h4]
        rfl

/-- **C33**: a test point is loaded with the same parameters and task sets. -/
theorem C33_testpoint_partial (tss : List (List Task)) (params : List (String × Val))
    (h : ∀ ts ∈ tss, ∀ t ∈ ts, PlainTask t) (hp : ∀ p ∈ params, Plain p.2) (e : Elem)
    (he : testpoint tss params = some e) : load e = some (.testpoint params tss) := by
  unfold testpoint at he
  cases hes : tss.mapM taskset with
  | none => rw [hes] at he; simp at he
  | some es =>
    rw [hes] at he
    obtain rfl := Option.some.inj he
    obtain ⟨h1, h2⟩ := mapM_sets h hes
    unfold load
    rw [if_neg (by simp), if_pos rfl]
    unfold parseTestpoint
    simp only
    rw [find_elems, findall_elems, List.filter_cons, if_neg (by simp), List.filter_eq_self.2, h2]
    · simp only [List.find?_cons, decide_true, Option.map_some, List.map_map]
      congr 2
      conv_rhs => rw [← List.map_id params]
      apply List.map_congr_left
      intro p hpm
      simp [(hp p hpm).read]
    · intro e he
      simpa using h1 e he

/-- Non-vacuity: a set and a test point that can be written. -/
example : (taskset [demo, { demo with id := .null, deadline := .int 10 }]).isSome = true ∧
    (testpoint [[demo], [demo, demo]] [("m", .int 4), ("dist", .str (.word "uni"))]).isSome = true := by
  decide +kernel

end Verif.Ser
