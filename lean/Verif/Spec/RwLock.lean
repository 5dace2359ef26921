/-
Specification: reader-writer locks on a multiprocessor with clusters of processors.  This file
does not depend on the model.

A read request may be served together with other read requests, a write request only alone.
Requests are not nested, and a job that has issued a request occupies a processor until it is
complete: it spins or, under the clustered RW OMLP, its progress is ensured by
priority donation, such that there are never more incomplete requests in a cluster than processors.
-/
import Verif.Spec.Msrp

namespace Verif.Spec
open Finset

/-- A job of the task may issue up to `num` requests for resource `res`, each of length at most
`len`. -/
structure RwReq where
  res : ℕ
  num : ℕ
  len : ℕ
  read : Bool

/-- Sporadic tasks with shared resources; `response i` bounds the response time of task `i`. -/
structure RwSystem (n : ℕ) where
  cluster : Fin n → ℕ
  period : Fin n → ℕ
  response : Fin n → ℕ
  reqs : Fin n → List RwReq

/-- When the jobs are released and complete, which requests are issued, when they are
issued (`enter`), granted (`acquire`) and complete (`leave`), and on which processor of the
cluster (`cpu`). -/
structure RwRun (n : ℕ) where
  release : Job n → ℕ
  finish : Job n → ℕ
  issued : Section n → Prop
  enter : Section n → ℕ
  acquire : Section n → ℕ
  leave : Section n → ℕ
  cpu : Section n → ℕ

/-- `s` is an issued read (write, if `rd` is false) request for resource `r`. -/
def RwRun.For {n : ℕ} (R : RwRun n) (S : RwSystem n) (s : Section n) (r : ℕ) (rd : Bool) : Prop :=
  R.issued s ∧ ∃ q, (S.reqs s.job.1)[s.idx]? = some q ∧ q.res = r ∧ q.read = rd

/-- In slot `t`, request `s` is being served. -/
def RwRun.Served {n : ℕ} (R : RwRun n) (s : Section n) (t : ℕ) : Prop :=
  R.acquire s ≤ t ∧ t < R.leave s

/-- What is common to all locks, with `procs` processors per cluster.  Processor `irqCpu` of
cluster `irq` issues no requests (`irq = -1`: there is no such processor). -/
structure RwLegal {n : ℕ} (procs : ℕ) (irq : ℤ) (irqCpu : ℕ) (S : RwSystem n) (R : RwRun n) : Prop where
  /-- Arrivals are sporadic. -/
  separated : ∀ i k, R.release (i, k) + S.period i ≤ R.release (i, k + 1)
  /-- Response times are respected. -/
  responds : ∀ j, R.finish j ≤ R.release j + S.response j.1
  /-- Jobs issue only declared requests. -/
  declared : ∀ s, R.issued s → ∃ q, (S.reqs s.job.1)[s.idx]? = some q ∧ s.inst < q.num
  /-- Requests are issued after the release and complete before the job is. -/
  within : ∀ s, R.issued s → R.release s.job ≤ R.enter s ∧ R.leave s ≤ R.finish s.job
  /-- Events happen in this order. -/
  order : ∀ s, R.issued s → R.enter s ≤ R.acquire s ∧ R.acquire s < R.leave s
  /-- Requests take no longer than declared. -/
  length : ∀ s q, R.issued s → (S.reqs s.job.1)[s.idx]? = some q → R.leave s ≤ R.acquire s + q.len
  /-- Tasks are sequential. -/
  serial : ∀ s s', R.issued s → R.issued s' → s.job.1 = s'.job.1 → s ≠ s' →
    R.leave s ≤ R.enter s' ∨ R.leave s' ≤ R.enter s
  /-- There are `procs` processors in each cluster. -/
  cpu_lt : ∀ s, R.issued s → R.cpu s < procs
  irq_lt : 0 ≤ irq → irqCpu < procs
  /-- Those for interrupts are not used. -/
  not_irq : ∀ s, R.issued s → (S.cluster s.job.1 : ℤ) = irq → R.cpu s ≠ irqCpu
  /-- A processor handles one request at a time. -/
  one : ∀ s s', R.issued s → R.issued s' → S.cluster s.job.1 = S.cluster s'.job.1 →
    R.cpu s = R.cpu s' → s ≠ s' → R.leave s ≤ R.enter s' ∨ R.leave s' ≤ R.enter s
  /-- A write request is served alone. -/
  exclusive : ∀ s s' r rd, R.For S s r false → R.For S s' r rd → s ≠ s' →
    R.leave s ≤ R.acquire s' ∨ R.leave s' ≤ R.acquire s
  /-- While a request waits, some request for the same resource is served. -/
  progress : ∀ s r rd t, R.For S s r rd → R.enter s ≤ t → t < R.acquire s →
    ∃ s' rd', R.For S s' r rd' ∧ R.Served s' t

/-- Runs with phase-fair locks: write requests are served in FIFO order; reader phases
and writer phases alternate, if both kinds of requests are waiting. -/
structure PhaseFair {n : ℕ} (procs : ℕ) (irq : ℤ) (irqCpu : ℕ) (S : RwSystem n) (R : RwRun n) : Prop
    extends RwLegal procs irq irqCpu S R where
  /-- Write requests are served in FIFO order. -/
  fifo : ∀ w w' r, R.For S w r false → R.For S w' r false → R.acquire w' < R.acquire w →
    R.enter w' ≤ R.enter w
  /-- A read request waits only if there is an incomplete write request. -/
  needed : ∀ s r t, R.For S s r true → R.enter s ≤ t → t < R.acquire s →
    ∃ w, R.For S w r false ∧ R.enter w ≤ t ∧ t < R.leave w
  /-- A read request is granted when the first writer phase that ends after its arrival ends, if it is
  not granted earlier. -/
  turn : ∀ s w r, R.For S s r true → R.For S w r false → R.enter s < R.leave w →
    R.acquire w < R.acquire s → R.acquire s ≤ R.leave w
  /-- Read requests that wait are granted together. -/
  together : ∀ s s' r, R.For S s r true → R.For S s' r true → R.enter s < R.acquire s' →
    R.acquire s ≤ R.acquire s'
  /-- While a write request waits, read requests are granted only at the end of a writer phase. -/
  concede : ∀ s w r, R.For S s r true → R.For S w r false → R.enter w < R.acquire s →
    R.acquire s < R.acquire w → ∃ w', R.For S w' r false ∧ R.leave w' = R.acquire s

/-- Runs with task-fair locks: all requests are served in FIFO order, consecutive read
requests together. -/
structure TaskFair {n : ℕ} (procs : ℕ) (irq : ℤ) (irqCpu : ℕ) (S : RwSystem n) (R : RwRun n) : Prop
    extends RwLegal procs irq irqCpu S R where
  /-- Requests are served in FIFO order. -/
  fifo : ∀ s s' r rd rd', R.For S s r rd → R.For S s' r rd' → R.acquire s' < R.acquire s →
    R.enter s' ≤ R.enter s
  /-- A read request waits only for a write request that is served before it. -/
  needed : ∀ s r t, R.For S s r true → R.enter s ≤ t → t < R.acquire s →
    ∃ w, R.For S w r false ∧ R.acquire w < R.acquire s ∧ t < R.leave w

namespace RwRun
variable {n : ℕ} (R : RwRun n) (S : RwSystem n)

open Classical in
/-- Total time that the requests of job `j` wait. -/
noncomputable def waiting (j : Job n) : ℕ :=
  ∑ q : Fin (S.reqs j.1).length, ∑ a ∈ range ((S.reqs j.1).get q).num,
    if R.issued ⟨j, q, a⟩ then R.acquire ⟨j, q, a⟩ - R.enter ⟨j, q, a⟩ else 0

end RwRun

end Verif.Spec
