# A machine-checked model of schedcat in Lean 4

Source: `/repo` (brandenburg/schedcat, Python plus a native C++ core), read as
text. The properties are in `properties.jsonl`, what is proved for each in
`MANIFEST.json`, mutation experiments in `seeded/LOG.jsonl`.

## Trusted base

* Lean 4.33.0's kernel. Theorems depend at most on Lean's standard axioms
  `propext`, `Classical.choice`, `Quot.sound` (checked with `#print axioms`).
  No own axioms, no `sorry`, no `native_decide`, no `bv_decide`.
* Mathlib definitions that occur in statements (ℕ, ℤ, ℚ, `List`, `Finset`,
  `Int.floor`, ...).
* The transcription of the code into the Lean model. Each model definition
  cites the file and lines it follows. Nothing is generated or executed from
  `/repo`.
* The specification files (`Verif/Spec/*`): sporadic arrival sequences,
  discrete-time schedules, scheduling policies, connectivity and so on. They
  do not mention the model.

### Modelling conventions

* Python numbers: parameters that may be fractional are exact rationals `ℚ`
  (floats are modelled as exact; rounding is not modelled). Where the code
  requires integers, `ℕ` or `ℤ`.
* Native `unsigned long` is `ℕ` and `mpz/mpq` are exact; wrap-around above
  2^64 is not modelled.  Where the code relies on subtracting unsigned values
  the model uses `ℤ` or guards the subtraction.
* Python exceptions and failed `assert`s are values (`none` / `Except`).
* Unbounded `while` loops are modelled either by well-founded recursion (then
  termination is part of the definition), or by a fuel-indexed function
  together with a theorem that says for which fuel the result is final. When
  a fuel function is used, running out of fuel is a separate value and not a
  result.
* Mutation of Python objects is modelled by returning the updated value.
* Random draws are modelled by an arbitrary stream.
* Time in schedules is discrete (ℕ), one processor executes at most one job
  per time unit and a job executes on at most one processor at a time. Tasks in
  schedules have natural number parameters.

## Layout

* `Verif/Spec/`    – specifications that are independent of the code.
* `Verif/Model/`   – the code, function by function.
* `Verif/Lemmas/`  – helper lemmas.
* `Verif/Props/`   – the property theorems (names start with the property id)
  with `example`s that show the hypotheses are met.

## Properties: what is modelled and how it is proved

| id | model | proof plan |
|----|-------|------------|
| C01 | `dbf` over ℚ; arrival sequences `ℕ → ℚ` with gaps ≥ T | jobs in the window have consecutive indices; count from spacing; the periodic sequence attains the bound |
| C02 | `rbf` over ℚ | like C01 |
| C03 | point generators (`count`/`dropwhile`/`takewhile`/`merge`/`uniq`) as finite lists | membership characterisation; between points the floor is constant; strict sortedness by induction |
| C04 | `maxjobs` | pending jobs are released in (a-R, a+I]; spacing |
| C05 | `lcm` loop, `hyperperiod` | loop is gcd based; dvd both ways; floor((t+kT-D)/T) shifts |
| C06 | `topsum`, `utilization(heaviest)` | sublists of a sorted list; exchange argument by induction |
| C07 | sorts, ids, filters | permutation and pairwise lemmas |
| C08 | `qpa.cpp` over ℕ and ℚ | busy interval L: dbf(L+s) ≤ L+dbf(s); Zhang–Burns bound for U<1; loop invariant that all points above the current interval are fine; termination since test points strictly decrease |
| C09 | C08 + schedule spec | sound: last quiet time before a missed deadline, demand exceeds the window. Complete: synchronous periodic sequence overloads [0,t) |
| C10 | `qpa_get_max_C_equal_D_cost` | every feasible budget stays below the candidate (loop invariant); on exit the candidate is feasible |
| C11 | `rta.py` | busy window argument: processor busy with own and higher-priority work until completion; first fixpoint bounds it |
| C12 | `rta.py` | monotone iteration from below |
| C13 | `rta.py` | violated for tasks with own jitter (concrete witness), proved without jitter |
| C14 | `rta.py` | jitter term (R - C) counts carry-in work of suspended hp tasks |
| C15 | `gfb.py`, `gfb.cpp` | compare EDF work with density-fluid work |
| C16 | `bcl.py` | interfering work per task is min(W_i, D-C+...) |
| C17 | all tests | GFB and BAK proved; BCL, BCLI, BAR, RTA and the combined test violated (concrete witnesses) |
| C18 | all tests | GFB, BAR and the combined test proved; BAK violated for arbitrary deadlines, BCL for infeasible tasks (witnesses); all proved for feasible constrained deadlines |
| C19 | `edf/rta.py`, `bcl_iterative.py` | estimate monotone so iterates rise to the fixed point |
| C20 | `edf/rta.py` | induction over the earliest violation of any claimed bound |
| C21–C25 | `binpack.py`, bins as lists | invariants by induction over the items; next_fit and any_fit violate C22 (witness) |
| C26–C28 | `rollback.py` | state = list of items; induction over histories; selection by min/max with the same tie-breaking |
| C29 | `quanta.py` | floor/ceil facts; `quantize_period` violates it due to swapped arguments (witness) |
| C30 | `quanta.py`, `pfair.py` | violated: swapped arguments (witness) |
| C31 | `jlfp.py`, `fp.py`, `locking.py` | order reasoning over ℚ |
| C32 | `util/math.py` | induction over points |
| C33, C77 | `serialize.py`, documents as forests of elements | round trip by structural induction; witnesses for what is lost or rejected |
| C34, C75, C76 | `linprog.py`, the text as a list of tokens | evaluation semantics of LPs; killed variables are 0 in every non-negative solution; a reader of the LP format inverts the writer; witnesses for clashing prefixes and rounded bounds |
| C35 | `resources.py` union of sets | invariant: merged groups = equivalence closure of processed pairs |
| C36 | `resources.py` tree flattening | structural induction on forests |
| C37 | `partition.py` | violated (witness of aliasing) |
| C38 | `bounds.py` | order reasoning; fractional deadline witness |
| C39 | `bound_blocking` | greedy exchange argument |
| C40 | `np_fifo_per_resource`, OMLP | sums of C39 |
| C41 | round robin mapping | modular arithmetic |
| C42 | `run.py`, servers as trees | packing invariants of best fit with unit capacity; number of servers shrinks; schedule of a level from the dual level by induction |
| C43, C78 | `apa.py` without `meta_reduce_periods`, arbitrary orders of iteration over sets | every run is a sequence of placements and splits (`Reach`); accounting, schedulability and termination by induction over runs; C=D budgets may be reduced; witnesses for equal identifiers and infeasible tasks |
| C44, C45 | `canbus.py`, `prio_assign.py` | fixed-point iteration, permutations |
| C46, C70 | `generator/tasks.py` | induction over draws; witness |
| C47 | `schedule_sim.h`, `edf/sim.cpp` | invariant of the simulator state between two events; slot-by-slot state `stateAt`; service of each job computed from the state; loop related to `stateAt` |
| C48, C79, C80 | `gel_pl.py`, `edf/gel_pl.cpp`, with arbitrary results of `std::sort` and `std::nth_element` | the sweep keeps the set of the k largest lines; doubling and bisection of a decreasing function; lag argument over non-busy instants for the response times; witnesses for overload |
| C49, C81 | `gy_rta.py` with arbitrary supply functions, theorems for the default ones | fixed-point iterations end because the number of released jobs grows; invariant of the sweep over the points of change; busy windows of EDF; violated for U = 1, for equal deadlines and for exactness |
| C82, C83 | `da.py`, both modes | lag argument: the lag of a set of jobs grows only while fewer than ⌈U⌉ tasks execute; completeness from overload; non-preemptive mode violated by a concrete schedule with m long jobs and one short one |
| C84 | native `gfb`, `baker`, `bcl`, `bcl_iterative`, `rta`, `baruah`, `la`, `load`, `gedf`, `is_schedulable_cpp` | equality with the Python model where the formulas agree; for Baruah and LA an invariant of the queue of test points and a miss within the tested range; for the load test a window with few carry-in tasks |
| C85 | the same for arbitrary deadlines | tables of EDF schedules checked by the kernel; a demand argument |
| C86 | native and Python tests | equality of the two models |
| C87 | preconditions of the native tests | inspection of the checks; a schedule with suspensions as witness |
| C88 | `ffdbf.py`, native `ffdbf.cpp`, the combined tests with `want_ffdbf` | a deadline miss gives, for every speed up to the bound, a violated deadline point that does not decrease with the speed (forced-forward demand, fewer than ν tasks carry in); the search never passes it; termination by counting points and speeds |
| C89 | `edf/__init__.py:bound_response_times` | composition of C57/C84, C20 and C82; tables of EDF schedules as witnesses for deadlines above the periods |
| C90 | `qpa_msrp.cpp`, `msrp_bounds`, `qpa.cpp` with blocking | runs of the MSRP as a specification (`Spec/Msrp`); a request spins for at most one request per other processor; in a window before a deadline miss at most one job with a later deadline executes, within one critical section; the QPA search is proved for every step function of the demand; equality with Baruah's criterion |
| C91 | `apply_msrp_bounds`, `msrp_bounds`, `fp/rta.py` | the schedule of one processor is a uniprocessor fixed-priority schedule with priority inversions bounded by one critical section; then C11 |
| C92 | `apply_classic_pip_bounds`, `global-pip.cpp`, `fp/bertogna.py` | runs with suspension-based locks and inheritance (`Spec/Pip.lean`); a delayed job waits for an executing owner or all processors serve higher (inherited) priorities; slots of each kind are counted, jobs of each task that execute certain sections by a window argument; induction over time for the deadlines of all tasks |
| C93 | `apply_classic_ppcp_bounds`, `ppcp.cpp` | the set of considered tasks stays empty (induction over both loops), hence no indirect blocking; a concrete run (finite table, checked by evaluation) misses a deadline; otherwise the bounds are at least those of C92; with few tasks (or few that share resources) runs of the P-PCP are runs of the PIP (`Lemmas/Ppcp.lean`) |
| C94 | `rw-phase-fair.cpp`, `merge_rw_requests` | each request gets finite sets of writes and reads that cover its waiting time (writers ahead of it; the longest reader of each reader phase); counting per task, cluster and phase shows that the greedy sums dominate |
| C95 | `rw-task-fair.cpp`, `get_cpp_model_rw`, `get_cpp_model` | each request gets the set of writes ahead of it and one longest reader per reader phase; an exchange argument for the greedy sum with limits per task, cluster and in total; the mutex baseline by counting all requests ahead |
| C96 | `rw-task-fair.cpp` against `clust-omlp.cpp` | a concrete task set refutes it; for one processor per cluster the limit of the own cluster is zero, so the terms are compared resource by resource |
| C97 | `apply_part_fmlp_bounds`, `fmlp_plus.cpp`, `fp/rta.py` | runs with boosting and FIFO queues (`Spec/Fmlp`); a busy-window argument for tasks that suspend (`Lemmas/PartFp`): in a window with M jobs of the task at most M times the blocking bound is idle, because every lower-priority section in it is in progress at the start or when a remotely blocked request of the task is granted; all processors by induction on time |
| C98 | `apply_mpcp_bounds`, `mpcp.cpp`, `fp/rta.py` | runs with priority-ordered queues and sections at their remote ceilings (`Spec/Mpcp`); a section holds its resource for at most the computed gcs response time, because each other task of the processor delays it by at most one section of at least its ceiling; the waiting time is a closed window with at most one lower-priority holder and at most ceil(w/T)+1 jobs of each higher-priority task; the same busy-window argument as for C97 (`Lemmas/PartFp`, `Lemmas/PartAccepted`); fixed-point iteration ends because it is increasing and cut off |
| C99 | `apply_dpcp_bounds`, `dpcp.cpp`, `fp/rta.py` | runs in which agents execute requests on the processors of the resources under the uniprocessor PCP (`Spec/Dpcp`); a delayed request is charged to the agent that executes: one of higher priority, counted by its jobs in the window, or one of lower priority that was granted before a resource with a high ceiling, of which there is at most one per request because the PCP grants no two; agents on the own processor are local blocking; the busy-window argument of C97. Violated for resources outside the mapping, with a run of two tasks |
| C100 | `apply_msrp_bounds_holistic`, `msrp-holistic.cpp`, `get_local_resources`, `extract_resources`, `fp/rta.py` | runs of the MSRP (`Spec/Msrp`); by induction over time, with response times bounded so far, the slots in which a job has spun so far are charged to remote requests, at most one per processor and own request and limited by the number of jobs; an incomplete job has received less service than its cost and the slots it has spun; the busy-window argument of C97 on the run cut off at that time. Local resources are found by an invariant of the loop, and the bounds on extracted resources equal those on all resources |
| C101 | `VarMapper::encode_request`, `VarMapperBase` | keys as in the code, the map as an association list; invariant over all sequences of lookups: different keys have different numbers; the key determines its parts if request numbers have at most 20 bits. The limit in the code is 22 bits: negation by a witness |
| C102 | `apply_pfp_lp_msrp_bounds`, `lp_spinlocks.cpp`, `lp_spinlock_msrp.cpp`, `iter-helper.h`, `lp_common.h` | the program is built as in the code, and solved by an arbitrary function that returns optimal solutions (`Spec/Milp`). In a busy window, each slot in which the processor serves no job of high priority or one that spins is charged to the section that is served; the fraction of its length that each request is charged is a feasible assignment whose value is the number of slots. With the window argument of `SpinFpCore` (service without spinning) the response times follow by induction over time |
| C103 | `apply_pfp_lp_baseline_spinlock_bounds`, `apply_pfp_lp_unordered_bounds`, `lp_spinlock_unordered.cpp` | as C102, for runs in which any waiting request may be next. If the iteration for the waiting time converges to `E`, then `E` slots of spinning would need more requests than can be served in `E` slots; otherwise the part of the spinning that lies in the window is no longer than the response time |
| C104 | `apply_lp_part_fmlp_bounds`, `lp_fmlp.cpp`, the shared-memory parts of `lp_common.cpp` (`Model/LpSem.lean`) | each slot in which neither the job nor a higher-priority local job runs is charged to the request that is executed and to a kind of blocking; the shares are a feasible point, so an optimal solution is at least as large. A constraint of the program mentions local or remote requests, not both, so an optimal solution is optimal in both parts; the local optimum is a natural number. Hence a task with a remote bound of 0 never waits for another processor |
| C105 | `apply_lp_mpcp_bounds`, `lp_mpcp.cpp` (`Model/LpMpcp.lean`) | violated in two ways, with runs of the MPCP and with dual certificates for the optima, hence for every solver. Otherwise as C104: owners of a resource for which a job waits are counted per request (one lower-priority owner, and the jobs of a higher-priority task in the waiting time), and each section that preempts an owner is determined by that owner. Missing: tasks of one processor that share a resource, and iterations that are given up, for both of which the claim is false |
| C106 | `apply_lp_dpcp_bounds`, `lp_dpcp.cpp` (`Model/LpDpcp.lean`) | violated in two ways, with runs of the DPCP and dual certificates for the optima, hence for every solver. Otherwise as C105: slots in which an agent executes on a processor where a job waits are direct or indirect blocking, others of lower-priority agents on its own processor are preemption blocking; the sections of higher-priority tasks are counted in the time that a request takes. Missing: the two cases in which the claim is false |
| C107 | `apply_lp_dflp_bounds`, `lp_dflp.cpp` (`Model/LpDflp.lean`) | violated as C106 (second cause), with a run of the DFLP. Otherwise as C106: the sections of a task that delay a request are incomplete when that request is issued, so there is one per task and request. Missing: the case in which the claim is false |
| C108 | `apply_pfp_lp_prio_bounds`, `lp_spinlock_prio.cpp` (`Model/LpSpinPrio.lean`), `add_request` | violated: three concrete runs with certificates of the optima. Otherwise, with equal priorities in the program, its constraints are those of C103 for a waiting time of 0, which are satisfied if a task has one job in a window. Missing: the case in which the claim is false; the preemptive variant |
| C109 | `apply_pfp_lp_prio_fifo_bounds`, `lp_spinlock_prio_fifo.cpp` (`Model/LpSpinPrio.lean`), `add_request` | violated: three concrete runs. Otherwise, with equal priorities, the constraints are those of C102. Missing: the case in which the claim is false; the preemptive variant |
| C110 | `nested_cs.cpp`, `nested_cs.h` (`Model/NestedCs.lean`) | invariant of the recursion: finished entries are exact, unfinished ones belong to callers, which are ancestors; induction on the number of missing entries |
| C111 | `nested_cs.cpp`, `nested_cs.h` (`Model/NestedCs.lean`) | induction along decreasing parent indices |
| C112 | `nested_cs.h`, `nested_cs.cpp` (`Model/NestedCs.lean`) | violated: three concrete pairs. Otherwise the walk over this section's own parents is exact. Missing: the case in which the claim is false |
| C113 | `apa_feas.cpp`, `apa_feas.h`, `get_native_affinities` (`Model/ApaFeas.lean`) | accept: the rates form a doubly substochastic matrix with a common denominator; Birkhoff's theorem splits it into slots that repeat in each time unit. Reject: service in a hyperperiod of the synchronous arrival sequence gives a feasible assignment |
| C114 | `can_sim.h`, `can_sim.cpp`, `schedule_sim.h` (`Model/CanSim.lean`) | invariant over the three steps of `advance_time` (each message is in exactly one of the queues or on the bus, the log is legal so far); termination by a measure of releases before the current time |
| C115 | `update_seqno` (`Model/CanSim.lean`) | counterexample with two messages; invariant on recorded starts |
| C116 | `get_job_completion_time` (`Model/CanSim.lean`) | observer that follows the log of the simulation |
| C117 | `tardiness_stats.cpp` (`Model/CanStats.lean`) | counterexample with two messages; invariant on the events and rounds of one message, through all steps of the simulation; invariant on sequences of callbacks |
| C118 | `job_completed_sync`, `job_completed_async` (`Model/CanStats.lean`) | counterexample with one message; case analysis |
| C119 | `simulate_for_tardiness_stats`, `generate_*`, `reset_*` (`Model/CanStats.lean`) | induction over the iterations; simulations without faults do not depend on the coins; the reset state equals the initial state |
| C120 | `lp_pedf_analysis.cpp`, `lp_pedf_msrp.cpp`, `lp_pedf_spinlocks_common.cpp` (`Model/LpPedf.lean`) | counterexample with two tasks, for all optimal solutions; otherwise each window before a first deadline miss is turned into a feasible solution of the program (sections that are served while local jobs spin or are blocked), and the check points of QPA and the fixed point of the arrival curve cover all windows |
| C121 | `last_check_point_before`, `quick_processor_demand_criterion` (`Model/LpPedf.lean`) | counterexample with two tasks |
| C122 | `gfrl.py` (`Model/Gfrl.lean`) | case analysis of all results |
| C123 | `gfrl.py`, including the tracing of the piecewise linear function (`Model/Gfrl.lean`) | the final assertion of the code; C79 for times multiplied by a common denominator; monotonicity of the function in the ratio |
| C124 | `gfrl.py`, including the tracing of the piecewise linear function (`Model/Gfrl.lean`) | lower envelope of lines (stack invariant), slope changes as sums of positive parts (independent of the order of equal locations), invariant of the sweep with exchanges, strict monotonicity |
| C125 | `lp_global.cpp`, `lp_global_no.cpp`, `lp_global_fifo.cpp`, `lp_no_progress_fifo.cpp` (`Model/LpGlobal.lean`) | first late job; its lost slots give a feasible assignment whose value exceeds the bound (uniform shares of sections, workload bounds, FIFO counting) |
| C126 | `lp_global.cpp`, `lp_global_pi.cpp`, `lp_global_fifo.cpp`, `lp_sa_gfmlp.cpp` (`Model/LpGlobal.lean`) | as C125, with the slots of sections that execute with inherited priorities; constraint 13 by FIFO order of the waiting requests of higher-priority tasks |
| C127 | `lp_global_prio.cpp`, `lp_global_no.cpp`, `lp_no_progress_priority.cpp` (`Model/LpGlobal.lean`) | as C125; the fixed points of the loops bound how long a section holds a resource while a job waits (`plain_held`) and how long a request waits (`wait_lt`) |
| C128 | `lp_global_prio.cpp`, `lp_global_pi.cpp`, `lp_global_pip.cpp` (`Model/LpGlobal.lean`) | as C126 and C127; hold times with inherited priorities (`inherit_held`) |
| C129 | `lp_global_prio.cpp`, `lp_global_no.cpp`, `lp_global_pi.cpp` (`Model/LpGlobal.lean`) | the iterated functions are monotone and the first value is no larger than the second, so each step increases the interval, which is at most the deadline |
| C130 | `lp_pedf_fifo_preempt.cpp`, `lp_pedf_spinlocks_common.cpp`, `lp_pedf_analysis.cpp` (`Model/LpPedfPreempt.lean`) | counterexample with two tasks of one processor; dual certificates show that all optimal solutions have the value 0; otherwise (`Spec/FifoPreempt`, `Lemmas/FifoPreemptRun`, `Lemmas/LpPedfPreempt*`, `Props/LpPedfPreemptSafe`) each window before a first deadline miss is turned into a feasible solution: requests are counted together with the slots in which they were issued for the last time, and each request that was issued again is mapped, injectively, to the job whose release preempted the spinning job |
| C131 | `lp_pedf_lockfree_NP.cpp`, `lp_pedf_lockfree_common.cpp`, `lp_pedf_analysis.cpp` (`Model/LpPedfLockFree.lean`) | counterexample with three tasks; dual certificates determine the bounds for all optimal solutions, and the run is given by a table |
| C132 | `lp_pedf_lockfree_preempt.cpp`, `lp_pedf_lockfree_common.cpp`, `lp_pedf_analysis.cpp` (`Model/LpPedfLockFree.lean`) | counterexample with four tasks; dual certificates determine the bounds for all optimal solutions, and the run is given by a table |
| C133 | `last_check_point_before` with the programs of the three tests (`Model/LpPedf.lean`, `Model/LpPedfPreempt.lean`, `Model/LpPedfLockFree.lean`) | counterexample with two tasks: all bounds are zero and the check point returns to the shortest deadline again and again |
| C134 | `lp_omip.cpp`, `set_blocking_objective_sob` of `lp_common.cpp` (`Model/LpOmip.lean`) | counterexample with four tasks, with dual certificates and a run given by a table; the partial theorem assigns to the variables the shares of the slots in which sections block, and counts the sections in the FIFO queue when a request is issued and when it enters the FIFO queue |
| C135 | `overheads/model.py`, `util/csv.py` (`Model/OverheadFiles.lean`) | induction over the fields of the mapping, with C32 for each column; the violation by induction over the fields |
| C136 | `util/csv.py` (`Model/OverheadFiles.lean`) | the dictionary of labels maps each label to its last column, by induction over the header |
| C137 | `util/math.py` (`Model/OverheadFiles.lean`) | algebra; every interpolation has at least one segment |
| C138 | `lp_gfmlp.cpp`, `sharedres_types.h`, `bounds.py` (`Model/LpGfmlp.lean`) | each assignment that satisfies the constraints of the partitioned FMLP+ (C104) satisfies those of the generalized FMLP+; the local optimum is a whole number |
| C139 | `lp_ppcp.cpp` (`Model/LpPpcp.lean`) | concrete run with five stalled requests, certificates for the optimal solutions; the partial theorems as C128; with few tasks (or few that share resources) runs of the P-PCP are runs of the PIP (`Lemmas/Ppcp.lean`) |
| C140 | `lp_spinlock_nested_fifo.cpp` (`Model/LpNested.lean`) | the sections that are served in a busy window, counted for each critical section, are a feasible assignment; per processor the FIFO queues admit one section per local request |
| C141 | `lp_spinlock_nested_fifo.cpp` (`Model/LpNested.lean`) | induction over the resources in the order in which the code visits them; the assignment of 0 to all variables is feasible |
| C142 | `lp_spinlock_nested_fifo.cpp` (`Model/LpNested.lean`) | the constraints of any feasible assignment are read off the program; remote requests vanish, and at most one local request counts |
| C143 | `example/locking.py:30-31` (`Model/ExampleStudy.lean`) | integer division on integers is modelled as such; witness with two tasks on two processors |
| C144 | `example/locking.py:47-68` (`Model/ExampleStudy.lean`) | induction on the rounds that are left; witness with a response time of 6 that is reached in the second round |
| C145 | `example/mapping.py` (`Model/ExampleStudy.lean`) on top of the model of `rollback.py` | from the theorems about bin packing (C27); the first misfit fits nowhere, and the sum over the clusters bounds the total |
| C146 | `lp_global_rsb.cpp`, `lp_global_fmlpp.cpp`, `lp_prsb.cpp` (`Model/LpRsb.lean`) | an infinite coefficient is `none`; the program of the first task is never defined for m = 1, and every program is for m > 1; termination of the waiting-time loops as for C129 |
| C147 | `Model/LpRsb.lean`: all constraints of the three files | the delays of a job are a feasible solution of the program (`Lemmas/LpRsb.lean`), as for C125-C128: without boosting, only direct blocking and interference of higher-priority jobs are nonzero |
| C148 | `glpk.cpp`, `cpx.cpp` (`Model/LpBackend.lean`); specification of programs and solver problems in `Spec/SolverProblem.lean` | coefficients set one after the other are the sum of the terms if variables are distinct; case distinction on the declarations of a variable for the columns |
| C149 | `lp_spinlock_msrp.cpp` with preemptive spinning (`Model/LpSpinPreempt.lean`) | constraints are only added; a solution with the numbers of preemptions set to 0 is a solution of the other program, with the same objective |
| C150 | `Model/LpSpinPreempt.lean` and `Model/LpBackend.lean` | witness: three tasks, the program of the second one |
| C151 | `lp_spinlock_prio.cpp` with preemptive spinning (`Model/LpSpinPreemptPrio.lean`) | constraints are only added; witnesses with certificates of optimality, for any optimal solver |
| C152 | `Model/LpSpinPreemptPrio.lean`, specification `Spec/PreemptPrio.lean` | a run given by a table, checked in the kernel (`Lemmas/JobTablePreempt.lean`) |
| C153 | `lp_spinlock_unordered.cpp` with preemptive spinning (`Model/LpSpinPreemptUnordered.lean`) | constraints are only added; equal waits for one resource; a witness with certificates of optimality, for any optimal solver |
| C154 | `lp_spinlock_prio_fifo.cpp` with preemptive spinning (`Model/LpSpinPreemptPrioFifo.lean`) | the two programs have the same solutions and the same objective |
| C155 | `Model/LpSpinPreemptPrioFifo.lean`, specification `Spec/PreemptPrio.lean` | a run given by a table, checked in the kernel |
| C156 | `util/time.py` (`Model/Util.lean`) | properties of floor and ceiling, induction on the list |
| C157 | `util/storage.py` (`Model/Util.lean`), specification `Spec/Util.lean` | induction on the history |
| C50 | `iter.py` | heap replaced by selection of a minimum |
| C51, C74 | `bertogna.py`, `guan.py` | slots in which a job waits are covered by workload bounds of the higher-priority tasks (Bertogna); extension to the last instant at which fewer than m higher-priority tasks are pending, so at most m-1 tasks carry in (Guan); sum of the m-1 largest differences as a maximum over sets; C74 witness |
| C52 | `math-helper.h`, `tasks.cpp` | arithmetic |
| C53 | `gfb.py`, `bak.py` | order reasoning |
| C54, C55 | `bak.py` | lambda-busy intervals; arbitrary deadlines: witness against every schedule |
| C56 | `bar.py` | interval analysis with at most m-1 carry-in tasks |
| C57, C58 | `edf/__init__.py`, `bcl_iterative.py` | composition of the single tests; slack iteration |
| C59, C60 | `jlfp.py`, `pfair.py`, `fp.py` | witnesses; order reasoning |
| C61 | `tasks.cpp:approx_load` | witness; monotone rounding of the demand |
| C62, C63 | `broster.py`, `canbus.py` | memo as state; discrete bus runs, last instant without higher-priority frames |
| C64, C65 | `global-fmlp.cpp`, `global-omlp.cpp` | as C39 |
| C66 | `resources.py` | induction over the calls |
| C71–C73 | `generator/generator_emstada.py` | induction over dimensions; witnesses |
| C67–C69 | `sim/edf.py`, `edf/sim.cpp` | witnesses; C47 |

## Specifications used in the safety theorems

* `Spec/Arrivals`, `Spec/Demand`, `Spec/Change`: release sequences with minimum
  separation, demand of a window, points where a step function changes.
* `Spec/Schedule`: sporadic workloads, schedules as sets of jobs per slot,
  legality (at most `m` jobs, only ready jobs, jobs of a task in order),
  priority-driven and EDF scheduling with arbitrary tie-breaking, meeting
  deadlines. QPA, C=D splitting, the G-EDF tests and the simulator are stated
  against it.
* `Spec/FixedPriority`: uniprocessor fixed priorities with release jitter,
  self-suspension and priority inversion (the RTA theorems).
* `Spec/LinProg`: value of sums, satisfaction, a reader of the solver's text format.
* `Spec/GlobalFp`: global fixed priorities, with and without blocking.
* `Spec/EdfResponse`: response times under uniprocessor EDF.
* `Spec/Gel`: schedulers with priority points, response-time bounds, the compliance equation.
* `Spec/Suspension`: global EDF with self-suspending jobs.
* `Spec/NonPreemptive`: non-preemptive global EDF, response-time bounds under EDF.
* `Spec/Packing`: what a packing is, which bin each heuristic may choose.
* `Spec/Completion`: the instant at which a job finishes.
* `Spec/RwLock`: phase-fair and task-fair reader-writer locks on clusters.
* `Spec/Msrp`, `Spec/PrioSpin`, `Spec/Pip`, `Spec/Fmlp`, `Spec/Mpcp`, `Spec/Dpcp`, `Spec/Dflp`: runs with mutex locks: spinning (MSRP), suspension with
  priority inheritance (global), suspension with priority boosting in FIFO order or by remote ceilings (partitioned),
  agents with priority ceilings (DPCP; `DpcpPrompt` adds when requests are issued and completed) or in FIFO order (DFLP).
* `Spec/Milp`: mixed-integer linear programs, feasible and optimal assignments.
* `Spec/Nested`: nested critical sections, locks held around a section, chains of nested requests.
* `Spec/ApaFeasible`: sporadic tasks with processor affinities, arrival sequences, slot schedules, exact solvers.
* `Spec/CanBus`: messages on a CAN bus, observations, legal and complete sequences of observations.
* `onTime` (in `Lemmas/CanStats`): the number of rounds that are transmitted by their deadlines; `average` (in `Props/CanStats`).
* `MixedProgram`, `Feasible`, `Maximum` (`Spec/MixedProgram`): mixed-integer linear programs and their optimal solutions.
* `GELQ`, `ResponseTimesBoundedQ`, `FairRatio` (`Spec/Gfrl`): schedulers with fractional priority points and the ratio for which the bounds on response times are proportional to the deadlines.
* `Spec/BoxLp.lean`: linear programs with unbounded variables and their optimal solutions
* `Spec/FifoPreempt.lean`: partitioned EDF with FIFO spin locks, preemptable spinning, and requests that are cancelled by preemptions and issued anew
* `Spec/GlobalLocks.lean`: global fixed-priority scheduling with FIFO or priority queues, with and without priority inheritance
* `Spec/LockFree.lean` — runs of jobs with commit loops on shared objects, preemptable or not: an attempt fails only if another job commits to the object during the attempt.
* `Spec/Omip.lean` — runs of the OMIP for a single cluster (FIFO queue of at most m requests, fed by a priority queue, with priority inheritance) and suspension-oblivious blocking.
* `Spec/Ppcp.lean`: runs of the P-PCP with the same parameter for all tasks (C139).
* `Spec/SolverProblem.lean`: linear programs with declared ranges, and the problems of LP solvers (C148).
* `Spec/Conserving.lean`: runs of tasks with resources under any work-conserving scheduler (C147).
* `Spec/PreemptPrio.lean`: runs of tasks under fixed-priority scheduling with preemptable priority-ordered spin locks (C152).
* `Spec/PreemptPrio.lean`, `PreemptPrioFifoFp`: the same with FIFO order among requests of equal priority (C155).
* `Spec/Util.lean`, `LastWritten`: the value stored last under a name in a history of operations (C157).
* The specifications of the CAN bus (`Props/CanRun`), of the delay patterns of
  locks (`Props/SharedRes`, `Props/SpinLocks`), of group locks and of the RUN
  reduction are stated at the top of the property files.

## What is not modelled

* Floating-point rounding, overflow of `unsigned long`, memory management.
* Printing, plotting, file handling, command-line tools, the SWIG interface
  (conversion of task sets between Python and C++ is modelled as the identity on
  the attributes that are passed).
* `heapq` and `std::priority_queue` by their contracts; `sorted` by the stable
  insertion sort; iteration over sets and dicts by an arbitrary order.
* Parts of the library for which there are no theorems: plotting helpers.  Of the LP-based analyses of
  preemptive spin locks, several claims are violated or partial (C149 to C155).  The LP solver itself is an arbitrary
  function that returns optimal solutions; C148 is about the problem it receives.

## Disagreements between code and expectation

Each is backed by a theorem with a concrete witness unless marked (read).

* `sched/fp/rta.py`: response time includes the task's own jitter, the deadline check does not (C13).
* `overheads/quanta.py:is_quantum_multiple` is called with swapped arguments for periods (C29).
* `overheads/pfair.py` calls `stagger_latency(total_cpus, qlen)` with swapped arguments (C30).
* `overheads/jlfp.py`, `pfair.py`: a latency above a period gives a negative period, and thus a negative density that makes tests accept (C31, C59).
* `overheads/fp.py`, `pfair.py` pass the task set instead of its size to the overhead functions (C60).
* `sched/edf/bcl.py`, `bcl_iterative.py`, `bar.py`, `rta.py` and `is_schedulable_py` accept sets with an infeasible task (C17).
* `sched/edf/bak.py` accepts overloaded arbitrary-deadline sets (C18) and is unsafe for them (C55).
* `sched/fp/bertogna.py` does not check that deadlines are constrained and accepts an overloaded set (C74).
* `sched/edf/rta.py` does not terminate on some sets with infeasible tasks (C19).
* `mapping/binpack.py`: `next_fit` drops items after running out of bins, `any_fit` may report a misfit twice, `best_fit(bins=0)` places oversized items (C21, C22).
* `mapping/rollback.py`: with ductile items the fit-based heuristics exceed the capacity because the size is read again after the item was changed (C27); `add` refers to an undefined name (read).
* `locking/partition.py:find_connected_components` loses merges through aliasing (C37).
* `locking/bounds.py:assign_edf_preemption_levels` truncates fractional deadlines (C38).
* Round-robin placement on one CPU which is the dedicated one assigns resources to it (C41).
* `model/resources.py:add_nested` does not check re-entrance of the sections below the one that is added (C36).
* `model/canbus.py`: the cached largest response time is stale after `add_replicas` (C44); the analysis ignores push-through interference (C63).
* `prio_assign.powerset([])` recurses without end (C45). `set_priorities` does not reset memos on entry (read).
* `broster.py`: a query without a number of faults extends the memo again (C62); `prob_msg_corrupted` uses `msgs.po` where `msgs.pc` is meant (read).
* `tasks.cpp:approx_load` is below the load for deadlines beyond periods (C61); it writes to a vector that was only reserved (read).
* `generator/tasks.py`: a squeezed task may have cost 0 and max_util is not matched (C70). `generator_emstada.py`: periods above the maximum (C72); the answer of `quantize_params` is ignored (C73).
* `edf/sim.cpp`: the reported first miss is the first late completion (C67); unfinished jobs are not examined (C68); 0 is both a deadline and "no miss". `sim/edf.py` ignores `preemptive` (C69).
* `run.py`: a starting id of 0 counts as "no id"; an empty list of servers yields one unit server and two levels (covered by the model).
* `util/linprog.py`: `kill_non_positive_vars` may drop an unsatisfiable equation (C34); prefixes may clash (C75); bounds are rounded to six decimals in the text for the solver (C76).
* Native `rta.cpp` checks the feasibility of the tasks twice and not whether they suspend (C87).
* `ffdbf.py` divides by zero if all costs are zero; native `FFDBFGedf` called directly on an empty set with two or more processors takes the top of an empty queue, where Python returns true (C88).
* `edf.bound_response_times` applies the response-time analysis for constrained deadlines to every accepted set, also to those with larger deadlines, and stores response times that are exceeded; for rejected sets with other than implicit deadlines it raises an `AssertionError` instead of returning `False` (C89).
* `pedf_msrp_classic_is_schedulable` ignores the blocking of and the spinning caused by tasks whose processor number is not below `num_cpus` (C90).
* `ppcp.cpp:Ilp_i_ppcp` tests for membership instead of absence in the set of considered tasks, which therefore stays empty: indirect blocking is zero whenever the priority assignment is "reasonable" (C93). It also takes the last instead of the minimal task of each round.
* `ResourceSharingInfo::add_request` does not pass on its argument `locking_priority`, so the priorities of requests given by `get_cpp_model` never reach the analyses (read).
* Native `baker.cpp`, `la.cpp`, `load.cpp` and `gedf.cpp` are unsafe for arbitrary deadlines, including the density shortcut of `GlobalEDF` for one processor (C85).
* The native tests check the feasibility of each task, the Python tests do not, so their verdicts differ (C86).
* `sched/edf/gy_rta.py`: no termination for utilization 1; the position in the task list advances by at most one per point, so tasks with equal deadlines get response times below their cost, even -inf (C49); `exact_wcrt` is not exact because `rbf` counts releases at the end of the window (C81).
* `sched/edf/da.py`, non-preemptive mode: the bound of a short task can be below the cost of the long jobs that block it, on one processor (where x is 0) and on two (C83).
* `sched/edf/gel_pl.py`: one processor with implicit deadlines is reported to meet them without a check of the utilization; the native class never checks for overload (C80); it also takes the absolute value of a negative `x` (`get_ui`), giving larger bounds than Python.
* `tasks.cpp`: a default priority point is taken from the parameter, hence 0 for implicit deadlines (read).
* `mapping/apa.py`: first fit looks up affinities by `t.id`, so tasks with equal identifiers (all `None` by default) are put on processors they must not use (C43); with splits, a task with cost above its deadline is reported as assigned because its second part has a negative deadline and a negative density (C78).
* `model/serialize.py`: response times are written but not read; priorities of requirements, empty affinities, integers above 2^53 (read through `float`) and numbers slightly above an integer change (C33); fractional request lengths and re-entrant sections raise on loading, sets with fractional parameters raise on writing (C77).
* `merge_rw_requests` keeps only the length of the last read (write) entry of a resource, so arrival blocking may be too small if entries of different lengths are added through the native interface (C94).
* `rw-task-fair.cpp` passes a task of one model to `np_fifo_per_resource` on another one, where comparing pointers does not exclude it: with more than one processor per cluster its own requests are counted as blocking in the mutex baseline, and the bounds may exceed those of `apply_task_fair_mutex_bounds` (C96). They remain safe (C95).
* `mpcp.cpp`: tasks with the priority of the analysed task are treated as lower-priority ones that hold the resource at most once per request, so priorities must be distinct across processors; the result of the fixed-point iteration is narrowed to `unsigned int` and compared with `UINT_MAX`, so larger time values are not covered (C98 assumes neither occurs).
* `dpcp.cpp`: `split_by_locality` drops requests for resources without a processor ("dedicated synchronization processor"), so that delays by such requests are never counted and tasks that miss deadlines are accepted (C99). A comment says that global sections are not part of the execution time of a job, but no bound contains a task's own requests, so their lengths have to be included in the cost; C99 assumes this.
* `lp_common.h`: `encode_request` checks that request numbers have at most 22 bits but packs them into 20, so requests of different tasks may share a variable (C101).
* `lp_spinlocks.cpp`: `max_preemptions` ignores its argument `interval` and always uses the response time (only used by the preemptive variants). If a task has two request entries for one resource, both use the same variables, and a solver may reject or overwrite the duplicate coefficients; C102 and C103 assume one entry per resource.
* `lp_mpcp.cpp`: `bound_remote_delay` leaves the loop when the next estimate exceeds the response time, but then compares the previous estimate with the response time and returns it as if it were a fixed point; with this value constraints 19 and 20 exclude possible schedules, and tasks that miss deadlines are accepted (C105). The first estimate is 1, so the loop also ends at once if the delay by lower-priority tasks is 1.
* `lp_common.cpp`: `max_num_arrivals_shm` counts one section of each local lower-priority task for the arrival of a job and one for each request that may conflict with a remote one. Under the MPCP, a job that waits for a resource held by another task of its processor may be delayed once more each time that resource changes hands, so constraint 11 excludes possible schedules (C105). Under the FMLP+ (C104) this does not happen.
* `lp_dpcp.cpp`: `bound_wait_time` has the same loop as `bound_remote_delay` of `lp_mpcp.cpp`: it returns a value that is no fixed point if the next one exceeds the response time, so `NO_WAIT_TIME_BOUND` is never used (C106). If the length of the request and of one lower-priority request already exceed the response time, the result is 0.
* `lp_dpcp.cpp`, `bounds.py`: a task with requests on other processors that are not delayed there gets `suspended = 0`, but the requests are executed on those processors; the response-time analysis of lower-priority tasks then assumes that the task never suspends (C106).
* `lp_dpcp.cpp` (read): constraint 7 limits only the direct blocking by lower-priority tasks; since indirect blocking by them is not limited, the constraint never changes an optimum.
* `lp_dflp.cpp`: the same as for `lp_dpcp.cpp`: tasks with undelayed requests on other processors are not regarded as self-suspending (C107). The values of solutions are truncated instead of rounded (read): with the floating-point solution of a solver, e.g. 2.9999, bounds may be one unit too small. Constraint 4 limits only direct blocking and never changes an optimum (read).
* `sharedres_types.h`, `ResourceSharingInfo::add_request`: the parameter `locking_priority` is ignored, so all requests have priority 0 in the analyses of priority-ordered spin locks (C108, C109).
* `lp_spinlock_prio.cpp`, `lp_spinlock_prio_fifo.cpp`: the loops that bound waiting times are not entered if the initial value is 0, i.e. if there is no request of lower (or equal) priority on another processor; the waiting time is then 0, whatever the requests of higher priority (C108, C109).
* `lp_spinlock_prio.cpp`: `add_prio_blocking_LP_constraints` limits arrival blocking by requests whose priority is below that of the local requests of the analysed and higher-priority tasks, although arrival blocking is due to the requests of a lower-priority task, which may have a lower priority (C108).
* `lp_spinlock_prio_fifo.cpp`: `add_prio_fifo_arrival_blocking_HP_constraints` multiplies by the number of requests of the analysed and higher-priority tasks for the resource; if there are none, no request of higher priority can cause arrival blocking (C109).
* `lp_spinlock_prio.cpp`, `lp_spinlock_prio_fifo.cpp` (read): the longest request of lower priority is determined with the priority of the analysed task's own requests instead of the one for which the waiting time is computed.
* `nested_cs.h`: `has_common_outer` for two critical sections calls `other_cs.has_common_outer(this_task, …)` instead of calling it on this critical section; the indices of the other section are then looked up in the wrong list (C112).
* C115: `CANJob::update_seqno` (`can_sim.cpp:16-25`) computes the current job number with `(time + 1) / period + 1` instead of `time / period + 1`; at the last time unit before a release, the next job is transmitted although it is not yet released, and the waiting job is lost.
* C116: `completion_time` is not initialised by the constructor; it is returned as it is if the job never completes within the simulated interval.
* C117: `CANJob::update_seqno` changes the number of a waiting job, but no `DeadlineEvent` exists for the new number (deadline events are created only at releases, `can_sim.cpp`), and the release of that number is skipped; hence its round is never counted by `deadline_expired`.
* C118: `CANJob::is_commission` erases host faults from the list of the message as a side effect. `job_completed` calls it first for the synchronous and then for the asynchronous protocol, so that the second call misses a fault that the first one found.
* C119: if no deadline expires in an iteration (or there are no iterations), the probability is 0/0.
* C120: `add_exclude_non_conflicting_local_resources` (`lp_pedf_spinlocks_common.cpp:284`) compares ceilings with `>=` where `>` is needed: a local resource with a ceiling equal to the largest preemption level within the interval can block.
* C121: `last_check_point_before` computes `d - T` for unsigned `d < T`; the wrapped value lets the check point grow or stay the same.
* C122: `gfrl.py:387` passes four arguments to `gel_pl.compute_response_bounds`, which takes three (the priority points are read from `task.prio_pt` there, but `gfrl.py` stores them as `gfrl_pp`); with no tasks, `filtered_tasks[0]` raises an `IndexError`.
* C124: with a relative deadline of 0, the tracing of `gfrl.py` may end with `zero = None`, and the call raises an exception (`C124_zero_deadline`).
* C130: constraint 12 of the common class (see C120) also affects `lp_pedf_fifo_preempt_is_schedulable`.
* C131: `add_rta_based_bound_on_remote_conflicts` (`lp_pedf_lockfree_NP.cpp:229-270`) multiplies the number of conflicts of a commit with the number of jobs of the task within the interval, which is 0 for a task whose commit causes arrival blocking, so that the retries of this commit are not counted.
* C132: `get_max_commit_length` (`lp_pedf_lockfree_preempt.cpp:212-229`) looks up the lengths of the commits of resource `q`, which is under analysis, instead of those of the resource `k` for which it is called, so that the response times of commits are too small if tasks with shorter deadlines access other resources.
* C133: the wrap-around of `last_check_point_before` (see C121) also affects the tests of preemptive spin locks and lock-free objects.
* `lp_pedf_lockfree_common.cpp:217` and `lp_pedf_fifo_preempt.cpp:248` never use the lower bound on the objective: `(lb - 1 > 0) ? 0 : lb - 1` is 0 for all bounds above 1.
* C134: `add_local_cluster_constraints` (`lp_omip.cpp:132-164`) lets each task block a request at most once unless more than twice as many tasks as there are processors access the resource.  A task may block a request twice as soon as the FIFO queue can be full, that is, if more tasks access the resource than there are processors.
* `add_omip_constraints` (`lp_omip.cpp:178`) passes `num_procs` where `add_local_cluster_constraints` expects `cluster_size`, which makes the constraints stricter still if there are several clusters.
* `schedcat/locking/bounds.py` defines `apply_omip_bounds` twice (lines 400 and 490), with the same body.
* C135: `schedcat/overheads/model.py` calls `piece_wise_linear` (lines 63 and 120) but imports only `monotonic_pwlin` and `const` (line 4), so that `non_decreasing=False` raises `NameError`.
* C136: `load_columns` (`csv.py:51-56`) fills `by_idx` only for the columns in the dictionary of labels; the earlier of two columns with the same label stays the number 0.  `col` skips empty rows (`csv.py:46-49`), but the default check of the row lengths (`csv.py:37-43`) refuses them first.
* C137: `PieceWiseLinearEqu.is_constant` (`util/math.py:89-90`) indexes its segments, which are `LinearEqu` objects without `__getitem__`.
* C139: `lp_ppcp.cpp:110` and `184` test `prio_ceilings.at(res_id)` (the resource that the analysed task requests) where the comment asks for the ceiling of the resource of the other request, `request->get_resource_id()`.
* C141: `lp_spinlock_nested_fifo.cpp:744` and `751` read `guaranteed_held_on_path[pcs.resource_id]` while this vector has only entries up to the resource of the nested request; `all_nesting_well_ordered` exists in `resources.py`, but the analysis does not call it.
* C143: `example/locking.py` does not import `division` from `__future__`, so `(clust.cpus - 1) / (clust.cpus) * task.cost` is 0 on any number of processors; the comment in the code says "use G-FL".
* C144: the loop of `bound_cfl_with_locks` works on copies of `clusts` and never stores the new response times there, so rounds 2 to 100 repeat round 1.
* C146: `lp_global_rsb.cpp` computes `1.0/(m - 1)`, which is infinite on one processor; no caller excludes this case.
* C148: `cpx.cpp` leaves the default upper bound 1 for integer variables, `glpk.cpp` removes any upper bound ("hack: for integer variables, ignore upper bound for now").  The analysis of preemptive FIFO spin locks (`lp_spinlock_msrp.cpp:28`) declares integer variables (numbers of preemptions) without a range, so its bounds depend on the solver.
* C150: the numbers of preemptions in the analysis of preemptive FIFO spin locks are integer variables without declared range; CPLEX restricts each to at most 1, so that the bound is lower than with GLPK.  The parameter `interval` of `max_preemptions` (`lp_spinlocks.cpp:79-93`) is ignored; the response time of the task is used instead.
* C151, C152: for preemptive priority-ordered spin locks, `add_prio_constraints` (`lp_spinlock_prio.cpp:425-448`) never adds the constraints for the numbers of preemptions that `lp_spinlock_prio_fifo.cpp:756-759` adds; each is a free variable between 0 and 1.  Tasks that are never preempted are charged for one preemption per resource, tasks that are preempted more than once are not charged enough.  `get_LPlh` (`lp_spinlock_prio.cpp:67`) iterates over the requests of the analysed task instead of those of the higher-priority task (read), and `get_localHP_resources` includes the resources of the analysed task.
* C153: for preemptive spin locks without order, `bound_wait_time` (`lp_spinlock_unordered.cpp:11-73`) counts requests for all resources in `get_localHP_resources`, which includes those of the analysed task itself, although its requests for different resources are never pending at the same time.
* C154, C155: `apply_pfp_lp_preemptive_prio_fifo_bounds` yields the bounds for FIFO order, as the locking priorities are dropped by `ResourceSharingInfo::add_request`.  With the locking priorities, the native function is not safe either (`C155_native_preempt_prio_fifo_violated`): `bound_wait_time_prio_fifo_preemptive` (`lp_spinlock_prio_fifo.cpp:317-437`) evaluates `get_pi_r` for the resource waited for instead of the resource of the request, so that requests which delay a preempting task at another resource are left out.  Besides, it evaluates the interference of local tasks once, for the initial estimate, instead of in each iteration (`C155_wait_fixed_point`).
* C157: `o.items = v` for a `Storage` object stores `v` under the key `items`, but `o.items` is the method of `dict` afterwards, as `__getattr__` (`util/storage.py:20-24`) is called only for names that are not attributes of the class.
