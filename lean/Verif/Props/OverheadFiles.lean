/-
C135, C136, C137: overhead files (`Overheads.from_file` and `CacheDelay.from_file`, `schedcat/overheads/model.py`,
`load_columns`, `schedcat/util/csv.py`) and constant functions (`schedcat/util/math.py`).
-/
import Verif.Lemmas.OverheadFiles
import Verif.Props.PwLin

namespace Verif.Oh

/-! ### C136: columns -/

/-- **C136**, partial: if no two columns have the same label, each column is found under its label and under its number,
and contains the converted entries of all rows. -/
theorem C136_columns_partial {α β : Type} (convert : β → Option α) (expectUniform : Bool) {header : List String}
    {data : List (List β)} (hne : header ≠ []) (hn : header.Nodup) (hrows : ∀ row ∈ data, row.length = header.length)
    (hconv : ∀ row ∈ data, ∀ b ∈ row, ∃ a, convert b = some a) :
    ∃ cols, loadColumns convert expectUniform header data = .ok cols ∧
      ∀ (i : ℕ) (key : String), header[i]? = some key → cols.columns.lookup key = some i ∧
        ∃ c, cols.byName.lookup key = some c ∧ cols.byIdx[i]? = some (some c) ∧ c.length = data.length ∧
          ∀ (r : ℕ) (row : List β) (b : β), data[r]? = some row → row[i]? = some b → c[r]? = convert b := by
  obtain ⟨cols, h⟩ := loadColumns_exists hne expectUniform hrows hconv
  refine ⟨cols, h, ?_⟩
  intro i key hi
  have hmem := mem_colIdx_of_nodup hn hi
  constructor
  · rw [(loadColumns_ok h).1]
    apply lookup_of_mem _ hmem
    intro p hp hk
    rw [colIdx_unique hp hmem (Or.inl hk)]
  · obtain ⟨c, hc, hl, hx⟩ := byName_lookup h hmem
    have hf : data.filter (fun row => !row.isEmpty) = data := by
      rw [List.filter_eq_self]
      intro row hrow
      have h1 := hrows row hrow
      have h2 := List.length_pos_of_ne_nil hne
      cases row with
      | nil => simp at h1; omega
      | cons a l => rfl
    unfold column at hc
    rw [hf] at hc
    obtain ⟨h1, h2⟩ := mapM_getElem? hc
    refine ⟨c, hl, hx, h1, ?_⟩
    intro r row b hr hb
    rw [h2 r row hr, hb]
    rfl

/-- Two columns. -/
example : ["A", "B"] ≠ [] ∧ ["A", "B"].Nodup ∧ (∀ row ∈ [[1, 2], [3, 4]], row.length = ["A", "B"].length) ∧
    (∀ row ∈ [[1, 2], [3, 4]], ∀ b ∈ row, ∃ a, (some : ℕ → Option ℕ) b = some a) :=
  ⟨by simp, by decide, by decide, fun _ _ b _ => ⟨b, rfl⟩⟩

/-- **C136**, violated: if a label occurs again in a later column, the number of the column leads to no entries. -/
theorem C136_columns_violated {α β : Type} {convert : β → Option α} {expectUniform : Bool} {header : List String}
    {data : List (List β)} {cols : Columns α} (h : loadColumns convert expectUniform header data = .ok cols) {i j : ℕ}
    (hij : i < j) {key : String} (hi : header[i]? = some key) (hj : header[j]? = some key) :
    cols.byIdx[i]? = some none := by
  refine (loadColumns_ok h).2.2.2 i (List.getElem?_eq_some_iff.1 hi).1 ?_
  rintro ⟨k, l⟩ hp rfl
  obtain ⟨h1, h2⟩ := mem_colIdx.1 hp
  rw [hi] at h1
  cases h1
  exact h2 j hij hj

/-- Such a file is loaded without an error. -/
example : ∃ cols, loadColumns (some : ℕ → Option ℕ) true ["A", "A"] [[1, 2], [3, 4]] = .ok cols :=
  loadColumns_exists (by simp) true (by decide) (fun _ _ b _ => ⟨b, rfl⟩)

/-- **C136**, violated: files with empty lines are refused, although `col` is written to skip them. -/
theorem C136_empty_line_refused {α β : Type} (convert : β → Option α) {header : List String} {data : List (List β)}
    (hne : header ≠ []) (h : [] ∈ data) : loadColumns convert true header data = .error .io := by
  unfold loadColumns
  rw [if_neg hne, if_pos]
  rw [Bool.true_and, List.any_eq_true]
  refine ⟨[], h, ?_⟩
  have := List.length_pos_of_ne_nil hne
  simp only [List.length_nil, ne_eq, decide_eq_true_eq]
  omega

/-! ### C135: overheads -/

/-- With distinct fields, the order in which they are loaded does not matter. -/
theorem loadFields_ok {byName : List (String × List ℚ)} {xs : List ℚ} :
    ∀ {l : List (String × String)} {o : String → OhFun}, (l.map Prod.snd).Nodup →
      (∀ p ∈ l, ∀ ys, byName.lookup p.1 = some ys → ∃ f, monotonicPwlin (xs.zip ys) = some f) →
      ∃ o', loadFields true byName xs l o = .ok o' ∧ (∀ g, g ∉ l.map Prod.snd → o' g = o g) ∧
        ∀ p ∈ l, (byName.lookup p.1 = none → o' p.2 = o p.2) ∧
          ∀ ys, byName.lookup p.1 = some ys → monotonicPwlin (xs.zip ys) = some (o' p.2) := by
  intro l
  induction l with
  | nil => intro o _ _; exact ⟨o, rfl, fun _ _ => rfl, by simp⟩
  | cons p l ih =>
    intro o hn hf
    obtain ⟨name, field⟩ := p
    rw [List.map_cons, List.nodup_cons] at hn
    obtain ⟨hnot, hn⟩ := hn
    unfold loadFields
    rcases hl : byName.lookup name with _ | ys
    · obtain ⟨o', h1, h2, h3⟩ := ih (o := o) hn (fun q hq => hf q (List.mem_cons_of_mem _ hq))
      refine ⟨o', h1, ?_, ?_⟩
      · intro g hg
        exact h2 g (fun hc => hg (by rw [List.map_cons]; exact List.mem_cons_of_mem _ hc))
      · intro q hq
        rcases List.mem_cons.1 hq with rfl | hq
        · refine ⟨fun _ => h2 _ hnot, ?_⟩
          intro ys hys
          simp only at hys
          rw [hl] at hys
          cases hys
        · exact h3 q hq
    · obtain ⟨f, hfe⟩ := hf (name, field) (by simp) ys hl
      obtain ⟨o', h1, h2, h3⟩ := ih (o := fun g => if g = field then f else o g) hn
        (fun q hq => hf q (List.mem_cons_of_mem _ hq))
      refine ⟨o', ?_, ?_, ?_⟩
      · simp only [approximation, if_true, hfe]
        exact h1
      · intro g hg
        rw [List.map_cons, List.mem_cons, not_or] at hg
        rw [h2 g hg.2, if_neg hg.1]
      · intro q hq
        rcases List.mem_cons.1 hq with rfl | hq
        · constructor
          · intro hc
            simp only at hc
            rw [hl] at hc
            cases hc
          · intro ys' hys'
            simp only at hys' ⊢
            rw [hl] at hys'
            cases hys'
            rw [hfe, h2 field hnot, if_pos rfl]
        · obtain ⟨h4, h5⟩ := h3 q hq
          refine ⟨?_, h5⟩
          intro hc
          rw [h4 hc, if_neg]
          rintro e
          exact hnot (List.mem_map.2 ⟨q, hq, e⟩)

/-- Nothing is loaded if plain interpolations are asked for. -/
theorem loadFields_plain {byName : List (String × List ℚ)} {xs : List ℚ} :
    ∀ {l : List (String × String)} {o : String → OhFun}, (∃ p ∈ l, byName.lookup p.1 ≠ none) →
      loadFields false byName xs l o = .error .name := by
  intro l
  induction l with
  | nil => rintro o ⟨p, hp, _⟩; simp at hp
  | cons p l ih =>
    rintro o ⟨q, hq, hc⟩
    obtain ⟨name, field⟩ := p
    unfold loadFields
    rcases hl : byName.lookup name with _ | ys
    · apply ih
      rcases List.mem_cons.1 hq with rfl | hq
      · exact absurd hl hc
      · exact ⟨q, hq, hc⟩
    · simp [approximation]

/-- The samples of column `i`: the entries of column `k` are the places. -/
def samples (scale : ℚ) (num : List (List ℚ)) (k i : ℕ) : List (ℚ × ℚ) :=
  num.map (fun row => (scale * row.getD k 0, row.getD i 0))

section
variable {β : Type} {toFloat : β → Option ℚ} {header : List String} {data : List (List β)} {num : List (List ℚ)}

theorem column_eq (hnum : data.mapM (fun row => row.mapM toFloat) = some num)
    (hrows : ∀ row ∈ data, row.length = header.length) {i : ℕ} (hi : i < header.length) :
    column toFloat data i = some (num.map (fun row => row.getD i 0)) := by
  have hf : data.filter (fun row => !row.isEmpty) = data := by
    rw [List.filter_eq_self]
    intro row hrow
    have h1 := hrows row hrow
    cases row with
    | nil => simp at h1; omega
    | cons a l => rfl
  unfold column
  rw [hf]
  clear hf
  induction data generalizing num with
  | nil =>
    simp at hnum
    subst hnum
    rfl
  | cons row data ih =>
    rw [List.mapM_cons] at hnum ⊢
    simp only [Option.bind_eq_bind, Option.bind_eq_some_iff, Option.pure_def, Option.some.injEq] at hnum
    obtain ⟨r, hr, num', hn', rfl⟩ := hnum
    rw [ih hn' (fun row hrow => hrows row (List.mem_cons_of_mem _ hrow))]
    obtain ⟨h1, h2⟩ := mapM_getElem? hr
    have hlt : i < row.length := by rw [hrows row (by simp)]; exact hi
    have h3 := h2 i row[i] (List.getElem?_eq_getElem hlt)
    rw [List.getElem?_eq_getElem hlt]
    simp only [Option.bind_some]
    rw [← h3, List.getElem?_eq_getElem (by omega)]
    simp only [Option.bind_eq_bind, Option.bind_some, List.map_cons, Option.pure_def]
    congr 2
    rw [List.getD_eq_getElem?_getD, List.getElem?_eq_getElem (by omega)]
    rfl

theorem load_numbers (hne : header ≠ []) (hn : header.Nodup)
    (hrows : ∀ row ∈ data, row.length = header.length)
    (hnum : data.mapM (fun row => row.mapM toFloat) = some num) :
    ∃ cols, loadColumns toFloat true header data = .ok cols ∧
      (∀ key, key ∉ header → cols.byName.lookup key = none) ∧
      ∀ (i : ℕ) (key : String), header[i]? = some key → cols.byName.lookup key = some (num.map (fun row => row.getD i 0)) := by
  obtain ⟨cols, h⟩ := loadColumns_exists (convert := toFloat) hne true hrows (by
    intro row hrow b hb
    obtain ⟨r, _, hr⟩ := (mapM_mem hnum).1 row hrow
    obtain ⟨a, _, ha⟩ := (mapM_mem hr).1 b hb
    exact ⟨a, ha⟩)
  refine ⟨cols, h, fun key hk => byName_lookup_none h hk, ?_⟩
  intro i key hi
  obtain ⟨c, hc, hl, _⟩ := byName_lookup h (mem_colIdx_of_nodup hn hi)
  rw [column_eq hnum hrows (List.getElem?_eq_some_iff.1 hi).1] at hc
  cases hc
  exact hl

theorem zip_samples (scale : ℚ) (k i : ℕ) :
    ((num.map (fun row => row.getD k 0)).map (fun x => scale * x)).zip (num.map (fun row => row.getD i 0)) =
      samples scale num k i := by
  unfold samples
  induction num with
  | nil => rfl
  | cons r num ih =>
    simp only [List.map_cons, List.zip_cons_cons, ih]

theorem good_samples {scale : ℚ} (hs : 0 < scale) {k : ℕ} (hnn : num ≠ [])
    (hk : num.Pairwise (fun r r' => r.getD k 0 < r'.getD k 0)) (hpos : ∀ row ∈ num, ∀ v ∈ row, 0 ≤ v) (i : ℕ) :
    GoodSamples (samples scale num k i) := by
  refine ⟨by simpa [samples] using hnn, ?_, ?_⟩
  · unfold samples
    rw [List.pairwise_map]
    exact hk.imp (fun h => mul_lt_mul_of_pos_left h hs)
  · intro p hp
    obtain ⟨row, hrow, rfl⟩ := List.mem_map.1 hp
    simp only [List.getD_eq_getElem?_getD]
    rcases h : row[i]? with _ | v
    · simp
    · exact hpos row hrow v (List.mem_of_getElem? h)

end

/-- **C135**, partial: by default, each overhead function is zero if the file has no column for it, and otherwise
non-negative, non-decreasing, and at each task count the largest value of the samples up to this task count.  The
entries of the file are the numbers `num`, and column `k` contains the increasing task counts. -/
theorem C135_overheads_partial {β : Type} {toFloat : β → Option ℚ} {custom : List (String × String)} {scale : ℚ}
    {header : List String} {data : List (List β)} {num : List (List ℚ)} {k : ℕ}
    (hcustom : ((fieldMapping ++ custom).map Prod.snd).Nodup) (hs : 0 < scale)
    (hn : header.Nodup) (hrows : ∀ row ∈ data, row.length = header.length)
    (hnum : data.mapM (fun row => row.mapM toFloat) = some num) (hkey : header[k]? = some "TASK-COUNT") (hnn : num ≠ [])
    (hk : num.Pairwise (fun r r' => r.getD k 0 < r'.getD k 0)) (hpos : ∀ row ∈ num, ∀ v ∈ row, 0 ≤ v) :
    ∃ o, overheadsFromFile toFloat true custom scale header data = .ok o ∧
      ∀ p ∈ fieldMapping ++ custom, (p.1 ∉ header → ∀ x, (o p.2).eval x = 0) ∧
        ∀ i, header[i]? = some p.1 → (∀ x, 0 ≤ (o p.2).eval x) ∧ (∀ x x', x ≤ x' → (o p.2).eval x ≤ (o p.2).eval x') ∧
          ∀ r (hr : r < (samples scale num k i).length),
            RunMax (samples scale num k i) r ((o p.2).eval ((samples scale num k i)[r]).1) := by
  have hne : header ≠ [] := by rintro rfl; simp at hkey
  obtain ⟨cols, hcols, hno, hcol⟩ := load_numbers hne hn hrows hnum
  obtain ⟨o, h1, _, h3⟩ := loadFields_ok (byName := cols.byName)
    (xs := (num.map (fun row => row.getD k 0)).map (fun x => scale * x)) (l := fieldMapping ++ custom)
    (o := fun _ => .lin ⟨0, 0⟩) hcustom (by
      intro p _ ys hys
      by_cases hp : p.1 ∈ header
      · obtain ⟨i, hi⟩ := List.getElem?_of_mem hp
        rw [hcol i p.1 hi] at hys
        cases hys
        rw [zip_samples]
        obtain ⟨f, hf, _⟩ := C32_monotone_envelope (good_samples hs hnn hk hpos i)
        exact ⟨f, hf⟩
      · rw [hno p.1 hp] at hys
        cases hys)
  refine ⟨o, ?_, ?_⟩
  · unfold overheadsFromFile
    rw [hcols]
    simp only
    rw [hcol k _ hkey]
    exact h1
  · intro p hp
    obtain ⟨h4, h5⟩ := h3 p hp
    constructor
    · intro hc x
      rw [h4 (hno p.1 hc)]
      simp [OhFun.eval, LinearEqu.eval]
    · intro i hi
      have h6 := h5 _ (hcol i p.1 hi)
      rw [zip_samples] at h6
      obtain ⟨f, hf, h7, h8, _, h9, _⟩ := C32_monotone_envelope (good_samples hs hnn hk hpos i)
      rw [hf] at h6
      cases h6
      exact ⟨h7, h8, h9⟩

/-- Cache-related delays from a file: by default, the cost of each level of the file is covered at each sample, and the
largest cost is non-decreasing (**C135**, partial). -/
theorem C135_cache_delay_partial {β : Type} {toFloat : β → Option ℚ} {header : List String} {data : List (List β)}
    {num : List (List ℚ)} {k : ℕ} (hn : header.Nodup) (hrows : ∀ row ∈ data, row.length = header.length)
    (hnum : data.mapM (fun row => row.mapM toFloat) = some num) (hkey : header[k]? = some "WSS") (hnn : num ≠ [])
    (hk : num.Pairwise (fun r r' => r.getD k 0 < r'.getD k 0)) (hpos : ∀ row ∈ num, ∀ v ∈ row, 0 ≤ v) :
    ∃ o, cacheDelayFromFile toFloat true header data = .ok o ∧ (∀ x x', x ≤ x' → maxCost o x ≤ maxCost o x') ∧
      ∀ i, (header[i]? = some "MEM" ∨ header[i]? = some "L1" ∨ header[i]? = some "L2" ∨ header[i]? = some "L3") →
        ∀ row ∈ num, row.getD i 0 ≤ maxCost o (row.getD k 0) := by
  have hne : header ≠ [] := by rintro rfl; simp at hkey
  obtain ⟨cols, hcols, hno, hcol⟩ := load_numbers hne hn hrows hnum
  have hx : (num.map (fun row => row.getD k 0)).map (fun x => (1 : ℚ) * x) = num.map (fun row => row.getD k 0) := by
    simp
  obtain ⟨o, h1, _, h3⟩ := loadFields_ok (byName := cols.byName)
    (xs := num.map (fun row => row.getD k 0)) (l := levelMapping)
    (o := fun _ => .lin ⟨0, 0⟩) (by decide) (by
      intro p _ ys hys
      by_cases hp : p.1 ∈ header
      · obtain ⟨i, hi⟩ := List.getElem?_of_mem hp
        rw [hcol i p.1 hi] at hys
        cases hys
        rw [← hx, zip_samples]
        obtain ⟨f, hf, _⟩ := C32_monotone_envelope (good_samples one_pos hnn hk hpos i)
        exact ⟨f, hf⟩
      · rw [hno p.1 hp] at hys
        cases hys)
  have key : ∀ p ∈ levelMapping, (∀ x x', x ≤ x' → (o p.2).eval x ≤ (o p.2).eval x') ∧
      ∀ i, header[i]? = some p.1 → ∀ row ∈ num, row.getD i 0 ≤ (o p.2).eval (row.getD k 0) := by
    intro p hp
    obtain ⟨h4, h5⟩ := h3 p hp
    by_cases hph : p.1 ∈ header
    · obtain ⟨i, hi⟩ := List.getElem?_of_mem hph
      have h6 := h5 _ (hcol i p.1 hi)
      rw [← hx, zip_samples] at h6
      obtain ⟨f, hf, _, h8, h9, _⟩ := C32_monotone_envelope (good_samples one_pos hnn hk hpos i)
      rw [hf] at h6
      cases h6
      refine ⟨h8, ?_⟩
      intro i' hi' row hrow
      have e : i = i' := (List.getElem?_inj (List.getElem?_eq_some_iff.1 hi).1 hn).1 (hi.trans hi'.symm)
      subst e
      have := h9 _ (List.mem_map_of_mem (f := fun row : List ℚ => ((1 : ℚ) * row.getD k 0, row.getD i 0)) hrow)
      simpa using this
    · refine ⟨?_, ?_⟩
      · intro x x' _
        rw [h4 (hno p.1 hph)]
        simp [OhFun.eval, LinearEqu.eval]
      · intro i hi
        exact absurd (List.mem_of_getElem? hi) hph
  have k0 := key ("MEM", "MEM") (by decide)
  have k1 := key ("L1", "L1") (by decide)
  have k2 := key ("L2", "L2") (by decide)
  have k3 := key ("L3", "L3") (by decide)
  refine ⟨o, ?_, ?_, ?_⟩
  · unfold cacheDelayFromFile
    rw [hcols]
    simp only
    rw [hcol k _ hkey]
    exact h1
  · intro x x' h
    unfold maxCost
    exact max_le_max (max_le_max (k0.1 x x' h) (k1.1 x x' h)) (max_le_max (k2.1 x x' h) (k3.1 x x' h))
  · intro i hi row hrow
    unfold maxCost
    rcases hi with hi | hi | hi | hi
    · exact le_max_of_le_left (le_max_of_le_left (k0.2 i hi row hrow))
    · exact le_max_of_le_left (le_max_of_le_right (k1.2 i hi row hrow))
    · exact le_max_of_le_right (le_max_of_le_left (k2.2 i hi row hrow))
    · exact le_max_of_le_right (le_max_of_le_right (k3.2 i hi row hrow))

/-- **C135**, violated: without `non_decreasing`, no file with a column for an overhead can be loaded, since the module
calls a function that it does not import. -/
theorem C135_plain_violated {β : Type} {toFloat : β → Option ℚ} {custom : List (String × String)} {scale : ℚ}
    {header : List String} {data : List (List β)} {p : String × String} (hp : p ∈ fieldMapping ++ custom)
    (hin : p.1 ∈ header) (o : String → OhFun) : overheadsFromFile toFloat false custom scale header data ≠ .ok o := by
  unfold overheadsFromFile
  rcases hc : loadColumns toFloat true header data with e | cols
  · simp
  · simp only
    rcases hl : cols.byName.lookup "TASK-COUNT" with _ | counts
    · simp
    · simp only
      obtain ⟨i, hi⟩ := exists_colIdx hin
      obtain ⟨c, _, hlk, _⟩ := byName_lookup hc hi
      rw [loadFields_plain ⟨p, hp, by rw [hlk]; simp⟩]
      simp

/-- The same for cache-related delays. -/
theorem C135_plain_cache_violated {β : Type} {toFloat : β → Option ℚ} {header : List String} {data : List (List β)}
    {p : String × String} (hp : p ∈ levelMapping) (hin : p.1 ∈ header) (o : String → OhFun) :
    cacheDelayFromFile toFloat false header data ≠ .ok o := by
  unfold cacheDelayFromFile
  rcases hc : loadColumns toFloat true header data with e | cols
  · simp
  · simp only
    rcases hl : cols.byName.lookup "WSS" with _ | counts
    · simp
    · simp only
      obtain ⟨i, hi⟩ := exists_colIdx hin
      obtain ⟨c, _, hlk, _⟩ := byName_lookup hc hi
      rw [loadFields_plain ⟨p, hp, by rw [hlk]; simp⟩]
      simp

/-- The hypotheses are met by a file with two samples of two overheads. -/
example : ((fieldMapping ++ [("X", "x")]).map Prod.snd).Nodup ∧ ["TASK-COUNT", "CXS", "X"].Nodup ∧
    (∀ row ∈ [[1, 5, 2], [10, 4, 3]], row.length = ["TASK-COUNT", "CXS", "X"].length) ∧
    [[1, 5, 2], [10, 4, 3]].mapM (fun row => row.mapM (some : ℚ → Option ℚ)) = some [[1, 5, 2], [10, 4, 3]] ∧
    ([[1, 5, 2], [10, 4, 3]] : List (List ℚ)).Pairwise (fun r r' => r.getD 0 0 < r'.getD 0 0) ∧
    (∀ row ∈ ([[1, 5, 2], [10, 4, 3]] : List (List ℚ)), ∀ v ∈ row, 0 ≤ v) := by
  refine ⟨by decide, by decide, by decide, by decide +kernel, by decide +kernel, by decide +kernel⟩

/-! ### C137: constant functions -/

/-- **C137**, partial: `is_constant` is right for linear functions. -/
theorem C137_linear_partial (f : LinearEqu) : f.isConstant = true ↔ ∀ x y, f.eval x = f.eval y := by
  unfold LinearEqu.isConstant LinearEqu.eval
  rw [decide_eq_true_eq]
  constructor
  · intro h x y
    rw [if_pos h, if_pos h]
  · intro h
    by_contra hb
    have := h 0 1
    rw [if_neg hb, if_neg hb] at this
    apply hb
    linarith

/-- **C137**, violated: `is_constant` raises an exception for every interpolation. -/
theorem C137_is_constant_violated {points : List (ℚ × ℚ)} {f : PieceWiseLinearEqu}
    (h : PieceWiseLinearEqu.ofPoints points = some f) : f.isConstant = none := by
  unfold PieceWiseLinearEqu.ofPoints at h
  split_ifs at h with hl
  cases h
  match points, hl with
  | p :: q :: rest, _ =>
    unfold PieceWiseLinearEqu.isConstant
    simp [segmentItem, List.mapM_cons]

/-- There are such functions. -/
example : ∃ f, PieceWiseLinearEqu.ofPoints [(0, 1), (1, 1)] = some f := ⟨_, rfl⟩

end Verif.Oh
