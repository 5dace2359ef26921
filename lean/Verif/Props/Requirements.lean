/-
C66: resource requirements account for the requests added to them
(`schedcat/model/resources.py:4-51`).
-/
import Verif.Model.Resources
import Mathlib.Tactic.Linarith

namespace Verif.Res

/-- A request as passed to `add_request`. -/
structure Added where
  length : ℚ
  read : Bool
  priority : ℤ

/-- The requirement after adding the requests one by one to what a first access to
`resmodel[key]` creates. -/
def added (m : Reqs) (key : ℤ) (reqs : List Added) : Req :=
  reqs.foldl (fun r a => r.addRequest a.length a.read a.priority) (m.get key)

theorem added_foldl (reqs : List Added) : ∀ r : Req,
    let q := reqs.foldl (fun r a => r.addRequest a.length a.read a.priority) r
    q.resId = r.resId ∧
    q.writes = r.writes + (reqs.filter (fun a => !a.read)).length ∧
    q.reads = r.reads + (reqs.filter (fun a => a.read)).length ∧
    (∀ B, q.writeLength ≤ B ↔ r.writeLength ≤ B ∧ ∀ a ∈ reqs, a.read = false → a.length ≤ B) ∧
    (∀ B, q.readLength ≤ B ↔ r.readLength ≤ B ∧ ∀ a ∈ reqs, a.read = true → a.length ≤ B) ∧
    (∀ B, B ≤ q.priority ↔ B ≤ r.priority ∧ ∀ a ∈ reqs, B ≤ a.priority) := by
  induction reqs with
  | nil => intro r; simp
  | cons a as ih =>
    intro r
    obtain ⟨h0, h1, h2, h3, h4, h5⟩ := ih (r.addRequest a.length a.read a.priority)
    simp only [List.foldl_cons]
    rcases hr : a.read with _ | _
    · simp only [hr] at h0 h1 h2 h3 h4 h5
      simp only [Req.addRequest, if_false, Bool.false_eq_true] at h0 h1 h2 h3 h4 h5
      refine ⟨h0, ?_, ?_, ?_, ?_, ?_⟩
      · simp only [hr, Req.addRequest, if_false, Bool.false_eq_true]
        rw [h1]; simp [hr]; omega
      · simp only [hr, Req.addRequest, if_false, Bool.false_eq_true]
        rw [h2]; simp [hr]
      · intro B
        simp only [hr, Req.addRequest, if_false, Bool.false_eq_true]
        rw [h3]; simp [hr]; tauto
      · intro B
        simp only [hr, Req.addRequest, if_false, Bool.false_eq_true]
        rw [h4]; simp [hr]
      · intro B
        simp only [hr, Req.addRequest, if_false, Bool.false_eq_true]
        rw [h5]; simp; tauto
    · simp only [hr] at h0 h1 h2 h3 h4 h5
      simp only [Req.addRequest, if_true] at h0 h1 h2 h3 h4 h5
      refine ⟨h0, ?_, ?_, ?_, ?_, ?_⟩
      · simp only [hr, Req.addRequest, if_true]
        rw [h1]; simp [hr]
      · simp only [hr, Req.addRequest, if_true]
        rw [h2]; simp [hr]; omega
      · intro B
        simp only [hr, Req.addRequest, if_true]
        rw [h3]; simp [hr]
      · intro B
        simp only [hr, Req.addRequest, if_true]
        rw [h4]; simp [hr]; tauto
      · intro B
        simp only [hr, Req.addRequest, if_true]
        rw [h5]; simp; tauto

/-- **C66**: a resource first accessed by adding requests is charged exactly the number of
writes and of reads that were added, and per kind the least non-negative bound on the
lengths. -/
theorem C66_added (m : Reqs) (key : ℤ) (hm : m key = none) (reqs : List Added) :
    (added m key reqs).resId = key ∧
    (added m key reqs).writes = (reqs.filter (fun a => !a.read)).length ∧
    (added m key reqs).reads = (reqs.filter (fun a => a.read)).length ∧
    (added m key reqs).maxRequests = reqs.length ∧
    (∀ B, (added m key reqs).writeLength ≤ B ↔
      0 ≤ B ∧ ∀ a ∈ reqs, a.read = false → a.length ≤ B) ∧
    (∀ B, (added m key reqs).readLength ≤ B ↔
      0 ≤ B ∧ ∀ a ∈ reqs, a.read = true → a.length ≤ B) ∧
    (∀ B, (added m key reqs).maxLength ≤ B ↔ 0 ≤ B ∧ ∀ a ∈ reqs, a.length ≤ B) ∧
    (∀ B, B ≤ (added m key reqs).priority ↔ B ≤ 0 ∧ ∀ a ∈ reqs, B ≤ a.priority) := by
  obtain ⟨h0, h1, h2, h3, h4, h5⟩ := added_foldl reqs (m.get key)
  simp only [Reqs.get, hm] at h0 h1 h2 h3 h4 h5
  have e : added m key reqs = reqs.foldl (fun r a => r.addRequest a.length a.read a.priority)
      { resId := key, writes := 0, writeLength := 0, reads := 0, readLength := 0 } := by
    simp only [added, Reqs.get, hm]
  rw [e]
  refine ⟨h0, by rw [h1]; simp, by rw [h2]; simp, ?_, h3, h4, ?_, h5⟩
  · unfold Req.maxRequests
    rw [h1, h2]
    have : ∀ l : List Added, (l.filter (fun a => !a.read)).length
        + (l.filter (fun a => a.read)).length = l.length := by
      intro l
      induction l with
      | nil => rfl
      | cons a as ih => cases hr : a.read <;> simp [hr] <;> omega
    have := this reqs
    omega
  · intro B
    unfold Req.maxLength
    rw [max_le_iff, h3, h4]
    constructor
    · rintro ⟨⟨hB, hw⟩, _, hr⟩
      refine ⟨hB, fun a ha => ?_⟩
      cases h : a.read
      · exact hw a ha h
      · exact hr a ha h
    · rintro ⟨hB, h⟩
      exact ⟨⟨hB, fun a ha _ => h a ha⟩, hB, fun a ha _ => h a ha⟩

/-- **C66**: `convert_reads_to_writes` turns every request into a write: the number of
writes is the number of requests of any kind, their length bounds both kinds, no reads
remain, and converting again changes nothing. -/
theorem C66_convert (r : Req) (hw : 0 ≤ r.writeLength) :
    let c := r.convertReadsToWrites
    c.resId = r.resId ∧ c.priority = r.priority ∧
    c.writes = r.writes + r.reads ∧ c.reads = 0 ∧ c.readLength = 0 ∧
    (∀ B, c.writeLength ≤ B ↔ r.writeLength ≤ B ∧ r.readLength ≤ B) ∧
    c.convertReadsToWrites = c := by
  refine ⟨rfl, rfl, rfl, rfl, rfl, fun B => max_le_iff, ?_⟩
  have : max (max r.writeLength r.readLength) 0 = max r.writeLength r.readLength :=
    max_eq_left (le_trans hw (le_max_left _ _))
  simp only [Req.convertReadsToWrites, Req.maxRequests, Req.maxLength, add_zero, this]

/-- A read of length 3 and two writes of lengths 1 and 2. -/
example : (added (fun _ => none) 7 [⟨1, false, 5⟩, ⟨3, true, -1⟩, ⟨2, false, 2⟩]) =
      { resId := 7, writes := 2, writeLength := 2, reads := 1, readLength := 3, priority := -1 } ∧
    (added (fun _ => none) 7 [⟨1, false, 5⟩, ⟨3, true, -1⟩, ⟨2, false, 2⟩]).convertReadsToWrites =
      { resId := 7, writes := 3, writeLength := 3, reads := 0, readLength := 0, priority := -1 } := by
  decide +kernel

end Verif.Res
