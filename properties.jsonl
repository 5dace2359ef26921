{"id": "C01", "title": "dbf is the exact worst-case demand", "statement": "SporadicTask.dbf(t) is an upper bound on, and is attained by, the total execution cost of jobs that have both their release and their absolute deadline inside a window of length t, over every arrival sequence whose consecutive releases are at least one period apart. TaskSystem.dbf is the sum.", "quantifier": "every task (positive rational period, non-negative cost, any deadline), every window position and length, every legal infinite arrival sequence", "why_tests_cant": "arrival sequences are infinite objects and the window is arbitrary; tests can only sample a handful of releases", "anchors": ["schedcat/model/tasks.py:SporadicTask.dbf", "schedcat/model/tasks.py:TaskSystem.dbf"]}
{"id": "C02", "title": "rbf is the exact worst-case request bound", "statement": "SporadicTask.rbf(t) is an upper bound on, and is attained by, the total cost of jobs released inside a closed window of length t, over every legal arrival sequence.", "quantifier": "every task, every window, every legal arrival sequence", "why_tests_cant": "same as C01: the quantification is over infinite arrival sequences", "anchors": ["schedcat/model/tasks.py:SporadicTask.rbf", "schedcat/model/tasks.py:TaskSystem.rbf"]}
{"id": "C03", "title": "points of change are complete, sorted and duplicate free", "statement": "dbf_points_of_change(max_t) (and rbf_points_of_change) enumerates, in strictly increasing order and without duplicates, exactly the points <= max_t at which the bound function changes; in particular a bound dbf(t) <= t that holds at all listed points holds for every t <= max_t. With an offset the same points are shifted, dropping negative ones.", "quantifier": "every task set, every horizon, every offset, every t in the continuum up to the horizon", "why_tests_cant": "the claim is about all (rational) t between listed points and about every merge of generators", "anchors": ["schedcat/model/tasks.py:SporadicTask.dbf_points_of_change", "schedcat/model/tasks.py:SporadicTask.rbf_points_of_change", "schedcat/model/tasks.py:TaskSystem.dbf_points_of_change", "schedcat/util/iter.py:uniq"]}
{"id": "C04", "title": "maxjobs bounds the jobs pending in an interval", "statement": "SporadicTask.maxjobs(I) is at least the number of jobs of the task that can be pending at some point of any interval of length I, in every legal arrival sequence in which each job finishes within response_time of its release.", "quantifier": "every period, response-time bound, interval length and arrival sequence", "why_tests_cant": "unbounded arrival sequences and interval positions", "anchors": ["schedcat/model/tasks.py:SporadicTask.maxjobs"]}
{"id": "C05", "title": "hyperperiod is the least common multiple and demand repeats with it", "statement": "TaskSystem.hyperperiod() is divisible by every period, divides every other common multiple, is independent of task order, and dbf(t + H) = dbf(t) + H * utilization for every t not before the largest relative deadline minus period.", "quantifier": "every task set with positive integer periods, every t", "why_tests_cant": "number-theoretic claim over all period multisets", "anchors": ["schedcat/model/tasks.py:TaskSystem.hyperperiod", "schedcat/util/math.py:lcm"]}
{"id": "C06", "title": "heaviest-k sums are maxima over k-subsets", "statement": "topsum(lst, f, n) and TaskSystem.utilization(heaviest=n) equal the maximum, over all selections of min(n, len) elements, of the sum of f; hence no selection of at most n non-negative elements exceeds it, and the value does not depend on list order.", "quantifier": "every list, every function, every n", "why_tests_cant": "exponentially many selections per list", "anchors": ["schedcat/util/math.py:topsum", "schedcat/model/tasks.py:TaskSystem.utilization"]}
{"id": "C07", "title": "priority ids: sorting, ids and priority filters agree", "statement": "After sort_by_deadline/sort_by_period + assign_ids the list is a permutation of the original, sorted, ids are 1..n, and for every task with_higher_priority_than, the task itself and with_lower_priority_than partition the task set; assign_ids_by_deadline/period gives every task with a strictly smaller deadline/period a smaller id.", "quantifier": "every task list (including duplicates of parameters)", "why_tests_cant": "all permutations and ties", "anchors": ["schedcat/model/tasks.py:TaskSystem.sort_by_deadline", "schedcat/model/tasks.py:TaskSystem.assign_ids", "schedcat/model/tasks.py:TaskSystem.with_higher_priority_than"]}
{"id": "C08", "title": "QPA decides the processor demand criterion exactly", "statement": "For every set of feasible tasks, QPATest.is_schedulable terminates and returns true iff total utilization is at most 1 and dbf(t) <= t for every t >= 0; it is false for sets with an infeasible task.", "quantifier": "every task set with positive integer cost <= min(period, deadline), arbitrary deadlines", "why_tests_cant": "exactness quantifies over every interval length and every task set; the algorithm skips almost all points", "anchors": ["native/src/edf/qpa.cpp:QPATest::is_schedulable", "native/src/edf/qpa.cpp:edf_busy_interval", "native/src/edf/qpa.cpp:zhang_burns_interval", "native/src/tasks.cpp:TaskSet::bound_demand"]}
{"id": "C09", "title": "uniprocessor EDF never misses a deadline when QPA accepts", "statement": "If is_schedulable(1, tasks) accepts, then in every preemptive EDF schedule of every legal job arrival sequence (actual execution times at most the WCET) no job misses its deadline; if it rejects a set of feasible tasks, some legal arrival sequence makes every schedule miss a deadline.", "quantifier": "every arrival sequence, every work-conserving EDF schedule (any tie-breaking), every execution time behaviour", "why_tests_cant": "infinitely many infinite schedules", "anchors": ["schedcat/sched/edf/__init__.py:is_schedulable_cpp", "native/src/edf/qpa.cpp:QPATest::is_schedulable"]}
{"id": "C10", "title": "C=D splitting returns the largest schedulable budget", "statement": "For a schedulable partition, qpa_get_max_C_equal_D_cost(ts, wcet, period) returns the largest w <= wcet such that adding the task (cost w, period, deadline w) leaves the partition EDF-schedulable, and 0 if there is none.", "quantifier": "every schedulable task set, every wcet and period", "why_tests_cant": "maximality is a universal claim about every larger budget and every interval", "anchors": ["native/src/edf/qpa.cpp:qpa_get_max_C_equal_D_cost", "native/src/edf/qpa.cpp:find_feasible_cost_fixpoint"]}
{"id": "C11", "title": "uniprocessor fixed-priority response times are safe", "statement": "If sched.fp.rta.bound_response_times(1, tasks) returns True (no jitter, no suspensions, blocking terms valid), then in every preemptive fixed-priority schedule every job of every task completes within its response_time of its release, hence by its deadline.", "quantifier": "every task set in priority order, every legal arrival sequence, every fixed-priority schedule with priority inversion at most prio_inversion", "why_tests_cant": "quantifies over all schedules", "anchors": ["schedcat/sched/fp/rta.py:bound_response_times", "schedcat/sched/fp/rta.py:_rta_jitter_aware"]}
{"id": "C12", "title": "response-time iteration yields the least fixed point", "statement": "The iteration terminates; on success response_time - jitter is the least positive delta with own demand + sum of ceil((delta + J)/T)*C = delta; it fails exactly if no such delta exists at or below the deadline. Response time is never below the cost.", "quantifier": "every task, every set of higher-priority tasks with positive periods and non-negative costs and jitters", "why_tests_cant": "least-ness and termination are universal over all deltas and task sets", "anchors": ["schedcat/sched/fp/rta.py:_rta_jitter_aware"]}
{"id": "C13", "title": "an accepted fixed-priority task set has response times within deadlines", "statement": "If bound_response_times(1, tasks) returns True then task.response_time <= task.deadline for every task.", "quantifier": "every task set, including tasks with release jitter", "why_tests_cant": "must hold for every combination of jitter, cost, period and deadline", "anchors": ["schedcat/sched/fp/rta.py:_rta_jitter_aware"]}
{"id": "C14", "title": "fixed-priority analysis with suspensions is safe", "statement": "With self-suspensions and release jitter the response-time bound of bound_response_times is an upper bound in every schedule in which each job suspends for at most .suspended, provided all bounds are within the deadlines.", "quantifier": "every schedule with dynamic self-suspensions, every arrival sequence", "why_tests_cant": "quantifies over all suspension patterns", "anchors": ["schedcat/sched/fp/rta.py:rta_suspension_aware", "schedcat/sched/fp/rta.py:suspension_jitter"]}
{"id": "C15", "title": "the GFB density test is safe for global EDF", "statement": "If gfb.is_schedulable(m, tasks) accepts a task set with integral parameters (arbitrary deadlines), no job misses its deadline in any global EDF schedule on m processors.", "quantifier": "every m >= 1, every task set, every legal arrival sequence, every G-EDF schedule", "why_tests_cant": "quantifies over all multiprocessor schedules", "anchors": ["schedcat/sched/edf/gfb.py:is_schedulable"]}
{"id": "C16", "title": "the BCL test is safe for global EDF", "statement": "If bcl.is_schedulable(m, tasks) accepts a constrained-deadline task set with integral parameters in which every task has cost <= deadline, no job misses its deadline in any global EDF schedule on m processors (sets with an infeasible task are the subject of C17).", "quantifier": "every m, every task set, arrival sequence and G-EDF schedule", "why_tests_cant": "quantifies over all multiprocessor schedules", "anchors": ["schedcat/sched/edf/bcl.py:is_schedulable"]}
{"id": "C17", "title": "G-EDF tests only accept individually feasible tasks", "statement": "Whenever one of the hard real-time tests in HRT_TESTS (GFB, BAK, BAR, BCL, BCLI, RTA) or is_schedulable_py accepts a task set, every task has cost <= deadline (a job running alone can meet its deadline).", "quantifier": "every task set and number of processors", "why_tests_cant": "universal over all task sets; the violation needs a specific combination of task count, processor count and infeasible task", "anchors": ["schedcat/sched/edf/bcl.py", "schedcat/sched/edf/bcl_iterative.py", "schedcat/sched/edf/bar.py", "schedcat/sched/edf/rta.py", "schedcat/sched/edf/__init__.py:is_schedulable_py"]}
{"id": "C18", "title": "G-EDF tests never accept an overloaded system", "statement": "Whenever a hard real-time G-EDF test (GFB, BAK, BAR, BCL, BCLI, RTA) accepts, total utilization is at most the number of processors.", "quantifier": "every task set (arbitrary deadlines included), every m", "why_tests_cant": "universal over all task sets", "anchors": ["schedcat/sched/edf/bak.py", "schedcat/sched/edf/gfb.py", "schedcat/sched/edf/bcl.py", "schedcat/sched/edf/__init__.py:is_schedulable_py"]}
{"id": "C19", "title": "iterative G-EDF slack analyses terminate and are monotone", "statement": "rta_fixpoint and the round loops of rta.is_schedulable and bcl_iterative.is_schedulable terminate for every integral task set; a successful RTA fixpoint r satisfies cost <= r <= deadline and response_estimate(r) = r, and bcl slack values never decrease.", "quantifier": "every integral task set, m, round limit and step size", "why_tests_cant": "termination over all inputs", "anchors": ["schedcat/sched/edf/rta.py:rta_fixpoint", "schedcat/sched/edf/rta.py:is_schedulable", "schedcat/sched/edf/bcl_iterative.py:is_schedulable"]}
{"id": "C20", "title": "G-EDF response-time analysis is safe", "statement": "If rta.bound_response_times(m, tasks) succeeds on a constrained-deadline integral task set in which every task has cost <= deadline, every job in every G-EDF schedule on m processors completes within response_time of its release, and response_time <= deadline (sets with an infeasible task are the subject of C17).", "quantifier": "every m >= 1, task set, round limit, step size, arrival sequence and schedule", "why_tests_cant": "quantifies over all schedules", "anchors": ["schedcat/sched/edf/rta.py:bound_response_times", "schedcat/sched/edf/rta.py:is_schedulable"]}
{"id": "C21", "title": "bin packing never overfills a bin", "statement": "For next_fit, first_fit, worst_fit, almost_worst_fit, best_fit (bins > 0), any_fit and the decreasing variants, the total weight of every returned bin is at most capacity.", "quantifier": "every item list, weight function with non-negative capacity, number of bins", "why_tests_cant": "all item sequences of any length", "anchors": ["schedcat/mapping/binpack.py"]}
{"id": "C22", "title": "bin packing neither loses nor duplicates items", "statement": "For each heuristic, every input item ends up in exactly one returned bin or is reported exactly once via misfit (as a multiset).", "quantifier": "every item list, any weights, any number of bins and capacity", "why_tests_cant": "all item sequences; losses only show for particular sequences", "anchors": ["schedcat/mapping/binpack.py"]}
{"id": "C23", "title": "each heuristic picks the bin it is named after", "statement": "first_fit places an item in the lowest-numbered bin with room, worst_fit in a least-loaded bin, best_fit in a most-loaded bin with room, almost_worst_fit in a second-least-loaded candidate; an item is a misfit only if it fits in no bin at that time.", "quantifier": "every reachable packing state and item", "why_tests_cant": "claim about every intermediate state", "anchors": ["schedcat/mapping/binpack.py:first_fit", "schedcat/mapping/binpack.py:worst_fit", "schedcat/mapping/binpack.py:best_fit", "schedcat/mapping/binpack.py:almost_worst_fit"]}
{"id": "C24", "title": "on-demand best fit packs everything with few bins", "statement": "best_fit with bins=0 places every item, uses only bins within capacity when every item weighs at most capacity, and opens a bin only when no open bin has room, so any two non-empty returned bins together exceed capacity (hence fewer than 2*total/capacity + 1 bins).", "quantifier": "every item list with non-negative weights", "why_tests_cant": "approximation bound over all instances", "anchors": ["schedcat/mapping/binpack.py:best_fit"]}
{"id": "C25", "title": "decreasing variants sort without clobbering the input", "statement": "alg_decreasing(items) equals alg applied to a stable descending-by-weight permutation of items, and leaves the caller's list unchanged.", "quantifier": "every algorithm, item list and weight function", "why_tests_cant": "all lists and ties", "anchors": ["schedcat/mapping/binpack.py:decreasing"]}
{"id": "C26", "title": "tentative assignment is atomic", "statement": "try_to_add either returns True and appends exactly the new item, or returns False and leaves the bin's items exactly as before (BasicBin, Bin, GlobalConstraintBin, DuctileBin); the CheckedBin protocol assertions never fail under try_to_add.", "quantifier": "every bin state, item, size function and (global) validation predicate, every sequence of attempts", "why_tests_cant": "histories of attempts are unbounded; rollback bugs show only after particular failures", "anchors": ["schedcat/mapping/rollback.py:BasicBin.try_to_add", "schedcat/mapping/rollback.py:Bin", "schedcat/mapping/rollback.py:GlobalConstraintBin", "schedcat/mapping/rollback.py:DuctileBin", "schedcat/mapping/rollback.py:CheckedBin"]}
{"id": "C27", "title": "rollback heuristics conserve items and respect capacities", "statement": "After any sequence of binpack calls of NextFit, FirstFit, WorstFit, BestFit, MaxSpareCapacity or MinSpareCapacity, each submitted item is in exactly one bin or in misfits, every bin that started valid satisfies its validate(), the returned count plus the reported misfits equals the number of submitted items.", "quantifier": "every initial bins, every item sequence over several calls, optional make_bin", "why_tests_cant": "unbounded histories", "anchors": ["schedcat/mapping/rollback.py:Heuristic.binpack", "schedcat/mapping/rollback.py:FirstFit", "schedcat/mapping/rollback.py:NextFit", "schedcat/mapping/rollback.py:FitBased", "schedcat/mapping/rollback.py:CapacityBased"]}
{"id": "C28", "title": "MaxSpareCapacity equals WorstFit and MinSpareCapacity equals BestFit for fixed-size items", "statement": "As documented, for items whose size does not change, MaxSpareCapacity produces the same packing as WorstFit and MinSpareCapacity the same as BestFit.", "quantifier": "every bin configuration and item sequence with fixed sizes (any capacities)", "why_tests_cant": "equivalence of two algorithms on all inputs including ties", "anchors": ["schedcat/mapping/rollback.py:MaxSpareCapacity", "schedcat/mapping/rollback.py:MinSpareCapacity", "schedcat/mapping/rollback.py:WorstFit", "schedcat/mapping/rollback.py:BestFit"]}
{"id": "C29", "title": "quantization produces quantum multiples", "statement": "If quantize_wcet/quantize_period succeed, every cost (period, and deadline if requested) is an integral multiple of the quantum, costs are never decreased and periods never increased.", "quantifier": "every task set and quantum length", "why_tests_cant": "all combinations of period and quantum", "anchors": ["schedcat/overheads/quanta.py:quantize_wcet", "schedcat/overheads/quanta.py:quantize_period", "schedcat/overheads/quanta.py:is_quantum_multiple"]}
{"id": "C30", "title": "staggering is charged as (m-1)/m of a quantum", "statement": "In PFair overhead accounting with staggered quanta the additional release delay is (m-1)/m * quantum_length for m processors, and all schedulable results keep density below one.", "quantifier": "every quantum length and processor count", "why_tests_cant": "all parameter combinations", "anchors": ["schedcat/overheads/pfair.py:charge_scheduling_overheads", "schedcat/overheads/quanta.py:stagger_latency"]}
{"id": "C31", "title": "overhead accounting is conservative", "statement": "charge_scheduling_overheads (JLFP, FP), charge_initial_load, the spinlock/semaphore/DPCP request charges and quantize_params never decrease a cost (or request length) and never increase a period or deadline; if they do not return False every task has density at most 1 (JLFP, locking); larger overheads never turn a rejected set into an accepted one for JLFP.", "quantifier": "every task set and every non-negative overhead function", "why_tests_cant": "all overhead models", "anchors": ["schedcat/overheads/jlfp.py", "schedcat/overheads/fp.py", "schedcat/overheads/locking.py"]}
{"id": "C32", "title": "overhead interpolation is a monotone upper envelope", "statement": "monotonic_pwlin(points) yields a non-negative, non-decreasing function that dominates every sample point with non-negative value and interpolates linearly between the running maxima; make_monotonic does not change the interpolated function within the sampled range.", "quantifier": "every non-empty list of points with strictly increasing x and non-negative y, every x", "why_tests_cant": "continuum of arguments", "anchors": ["schedcat/util/math.py:make_monotonic", "schedcat/util/math.py:PieceWiseLinearEqu", "schedcat/util/math.py:monotonic_pwlin"]}
{"id": "C33", "title": "task systems survive serialization", "statement": "parse_task(task(t)) reproduces every attribute of a task that serialization is given (parameters, id, partition, working set, affinity, response time, resource requirements), and write/load of a whole task system preserves order.", "quantifier": "every task with integral parameters, every resource model", "why_tests_cant": "all attribute combinations", "anchors": ["schedcat/model/serialize.py"]}
{"id": "C34", "title": "LP transformations preserve meaning", "statement": "apply_variable_prefix preserves the feasible set up to renaming, merge yields the conjunction of constraints and the sum of objectives, kill_non_positive_vars (positive coefficients, non-negative variables) preserves the feasible objective values.", "quantifier": "every linear program and every assignment of values", "why_tests_cant": "continuum of assignments", "anchors": ["schedcat/util/linprog.py:LinearProgram"]}
{"id": "C35", "title": "group locks are the connected components of nesting", "statement": "identify_group_locks maps each used resource to the set of resources connected to it through nested requests of any task (the least equivalence relation containing every outer/inner pair); groups partition the resources, so nested resources share a group lock.", "quantifier": "every task set with arbitrarily nested critical sections", "why_tests_cant": "all nesting forests and visiting orders", "anchors": ["schedcat/model/resources.py:identify_group_locks", "schedcat/model/resources.py:OutermostCriticalSections.get_group_lock_model"]}
{"id": "C36", "title": "flattening of nested critical sections is faithful", "statement": "all_flat lists every critical section exactly once, outer before inner, with parent index -1 or the index of its directly enclosing section; lengths sum to total_length; if all nesting is well ordered then no section is re-entrant and resource ids increase along every nesting chain.", "quantifier": "every forest of critical sections", "why_tests_cant": "unbounded nesting depth and width", "anchors": ["schedcat/model/resources.py:OutermostCriticalSections.all_flat", "schedcat/model/resources.py:CriticalSection"]}
{"id": "C37", "title": "independent task subsets share no resources", "statement": "find_independent_tasksubsets partitions the task set such that two tasks that access a common resource are in the same subset, and tasks of the same subset are connected via shared resources.", "quantifier": "every task set and resource usage, every iteration order", "why_tests_cant": "depends on the order in which sets are merged", "anchors": ["schedcat/locking/partition.py:find_connected_components", "schedcat/locking/partition.py:find_independent_tasksubsets"]}
{"id": "C38", "title": "preemption levels reflect the scheduling policy", "statement": "After assign_edf_preemption_levels, a.preemption_level < b.preemption_level iff a.deadline < b.deadline; after assign_fp_preemption_levels levels equal list positions; is_reasonable_priority_assignment(m, ts) holds iff D_i <= D_j for every pair i < j among tasks after the m-th.", "quantifier": "every task list", "why_tests_cant": "all task lists including fractional deadlines", "anchors": ["schedcat/locking/bounds.py:assign_edf_preemption_levels", "schedcat/locking/bounds.py:assign_fp_preemption_levels", "schedcat/locking/bounds.py:is_reasonable_priority_assignment"]}
{"id": "C39", "title": "bound_blocking is the maximal conflicting request volume", "statement": "For a contention set sorted by decreasing request length, bound_blocking returns exactly the maximum total length over all ways to pick at most max_total requests, at most min(max_requests_per_source, jobs*requests) per source, from non-excluded sources.", "quantifier": "every contention set, interval, limits and exclusion", "why_tests_cant": "exponentially many request selections", "anchors": ["native/src/sharedres.cpp:bound_blocking"]}
{"id": "C40", "title": "non-preemptive FIFO spin bounds are safe", "statement": "The task-fair mutex / clustered OMLP remote bound of a task is at least the total blocking in any assignment of blocking requests in which each request of the task is delayed by at most one request per remote processor (per-cluster limits), each blocking source issues at most the requests its jobs can issue during the response time; total blocking equals remote plus arrival blocking.", "quantifier": "every resource sharing model, every cluster size, every conflict scenario", "why_tests_cant": "all interleavings of requests", "anchors": ["native/src/sharedres.cpp:np_fifo_per_resource", "native/src/blocking/clust-omlp.cpp:clustered_omlp_bounds"]}
{"id": "C41", "title": "round-robin resource placement avoids the interrupt CPU and is total", "statement": "get_round_robin_resource_mapping assigns each resource id to exactly one valid CPU and never to the dedicated interrupt CPU (given at least two CPUs).", "quantifier": "every number of resources and CPUs, every dedicated CPU", "why_tests_cant": "all parameter values", "anchors": ["schedcat/locking/bounds.py:get_round_robin_resource_mapping"]}
{"id": "C42", "title": "RUN reduction terminates with unit servers and preserves total rate", "statement": "For servers with rational rates in [0,1], ensure_integer_rate yields an integral total; every reduction level again has an integral total rate; reduce terminates and returns only unit servers; every original server appears exactly once as a client at the first level.", "quantifier": "every finite set of servers with rates in [0,1]", "why_tests_cant": "unbounded number of reduction levels", "anchors": ["schedcat/sched/run.py:reduce", "schedcat/sched/run.py:ensure_integer_rate"]}
{"id": "C43", "title": "semi-partitioning preserves work, affinities and schedulability", "statement": "split_task_C_equal_D conserves total cost, keeps the period, and the two deadlines sum to the original deadline; the worst-fit/first-fit partitioners place each task (or all its pieces) only on cores of its affinity, never lose a task, and each core's final task set passes the EDF test used.", "quantifier": "every task set, affinity and pre-assignment, with or without splitting", "why_tests_cant": "all placement histories", "anchors": ["schedcat/mapping/apa.py:split_task_C_equal_D", "schedcat/mapping/apa.py:try_edf_assign_task_worst_fit", "schedcat/mapping/apa.py:edf_worst_fit_decreasing_difficulty", "schedcat/mapping/apa.py:edf_first_fit_decreasing_difficulty"]}
{"id": "C44", "title": "CAN worst-case transmission times are fixed points and memoization is transparent", "statement": "get_wctt(m, f) returns the first iterate that is a fixed point of blocking + retransmissions(f) + interference + transfer delay or exceeds the deadline; get_wctt_fast agrees with it; the bound is monotone in the number of faults.", "quantifier": "every message set and fault count", "why_tests_cant": "all message sets; memo history", "anchors": ["schedcat/model/canbus.py:CANMessageSet.get_wctt", "schedcat/model/canbus.py:CANMessageSet.get_wctt_fast"]}
{"id": "C45", "title": "CAN priority assignment is sound, optimal and robust; subset enumeration is complete", "statement": "powerset enumerates every subset exactly once; the probabilities of the omission sets add up to one; robust priority assignment, if it succeeds, gives the ids 1..n in some order such that every message meets its deadline; it succeeds whenever any order does, and no other order tolerates more faults on every message.", "quantifier": "every message set", "why_tests_cant": "exponentially many subsets", "anchors": ["schedcat/sched/canbus/prob_success.py", "schedcat/sched/canbus/prio_assign.py"]}
{"id": "C46", "title": "task generators respect their limits", "statement": "TaskGenerator.tasks(max_tasks, max_util, squeeze) yields at most max_tasks tasks with total utilization at most max_util; parameters after truncation/redraw lie in the requested range.", "quantifier": "every stream of random draws", "why_tests_cant": "must hold for every random stream", "anchors": ["schedcat/generator/tasks.py:TaskGenerator.tasks", "schedcat/generator/tasks.py:truncate", "schedcat/generator/tasks.py:redraw"]}
{"id": "C47", "title": "the G-EDF simulator produces legal EDF schedules", "statement": "At every simulated event the native GlobalScheduler/EDF simulator runs the m earliest-deadline pending jobs (no pending job waits while a processor idles or runs a later-deadline job), no job executes beyond its cost, and completions occur exactly when the allocation equals the cost.", "quantifier": "every task set and every simulated time", "why_tests_cant": "every reachable simulator state", "anchors": ["native/include/schedule_sim.h:GlobalScheduler", "native/src/schedule_sim.cpp", "native/src/edf/sim.cpp"]}
{"id": "C48", "title": "GEL tardiness bounds solve the defining equation", "statement": "compute_binsearch_s returns s with M(s) <= 0 (a legal bound) not larger than the initial doubling bound; compute_exact_s returns a root of M; M(s) = sum of the ceil(U)-1 largest Y_i + u_i s plus S - m s.", "quantifier": "every task set with bounded tardiness, every number of rounds", "why_tests_cant": "continuum of s, all task sets", "anchors": ["schedcat/sched/edf/gel_pl.py:compute_binsearch_s", "schedcat/sched/edf/gel_pl.py:compute_exact_s"]}
{"id": "C49", "title": "EDF response-time analysis (Guan/Yi) terminates and returns sensible bounds", "statement": "For every task set with utilization at most 1, approx_wcrt/exact_wcrt terminate and set a response time which no job exceeds in any EDF schedule, which is at least the task's cost, and which is at most its deadline for all tasks iff the set is schedulable.", "quantifier": "every task set with utilization <= 1", "why_tests_cant": "termination and the bound must hold for every task set", "anchors": ["schedcat/sched/edf/gy_rta.py:find_L_prime", "schedcat/sched/edf/gy_rta.py:approx_wcrt", "schedcat/sched/edf/gy_rta.py:exact_wcrt"]}
{"id": "C50", "title": "merged iteration is sorted and complete", "statement": "imerge over sorted iterators yields a sorted permutation of all elements; uniq removes exactly adjacent duplicates, so uniq(imerge(...)) is strictly increasing.", "quantifier": "every family of sorted finite iterators and total preorder", "why_tests_cant": "all interleavings of iterators", "anchors": ["schedcat/util/iter.py:imerge", "schedcat/util/iter.py:uniq"]}
{"id": "C51", "title": "global fixed-priority response-time tests are safe", "statement": "If bertogna or guan bound_response_times(m, tasks) accepts an integral constrained-deadline task set, every job in every global fixed-priority schedule completes within response_time <= deadline; the fixed-point iteration terminates.", "quantifier": "every m, task set, arrival sequence and G-FP schedule", "why_tests_cant": "quantifies over all schedules", "anchors": ["schedcat/sched/fp/bertogna.py", "schedcat/sched/fp/guan.py"]}
{"id": "C52", "title": "integer helper arithmetic is exact", "statement": "divide_with_ceil(a,b) = ceil(a/b), divide_with_floor = floor(a/b), round_up(q) = least integer >= q; approx_demand is at least bound_demand and exceeds it by at most one cost, and is equal up to the chosen point.", "quantifier": "all naturals / rationals", "why_tests_cant": "all values", "anchors": ["native/include/math-helper.h", "native/src/tasks.cpp:Task::approx_demand", "native/src/tasks.cpp:Task::bound_demand"]}
{"id": "C53", "title": "the cheap G-EDF tests accept only feasible tasks and no overload", "statement": "GFB and BAK accept only task sets in which every task has cost <= deadline and cost <= period; GFB, BAR and is_schedulable_py accept only task sets with total utilization <= m.", "quantifier": "every m >= 1, every task set (arbitrary deadlines included), every choice of optional tests", "why_tests_cant": "universal over all task sets", "anchors": ["schedcat/sched/edf/gfb.py:is_schedulable", "schedcat/sched/edf/bak.py:is_schedulable", "schedcat/sched/edf/bar.py:is_schedulable", "schedcat/sched/edf/__init__.py:is_schedulable_py"]}
{"id": "C54", "title": "Baker's test is safe for constrained deadlines", "statement": "If bak.is_schedulable(m, tasks) accepts a constrained-deadline task set, no job misses its deadline in any global EDF schedule on m processors.", "quantifier": "every m >= 1, every task set, arrival sequence and G-EDF schedule", "why_tests_cant": "quantifies over all multiprocessor schedules", "anchors": ["schedcat/sched/edf/bak.py:is_schedulable"]}
{"id": "C55", "title": "Baker's test is safe for arbitrary deadlines", "statement": "As the comments in is_schedulable_py and GlobalEDF::is_schedulable say ('Baker's test can handle arbitrary deadlines'): if Baker's test accepts a task set with deadlines larger than periods, no job misses its deadline under global EDF; hence is_schedulable is safe for arbitrary deadlines.", "quantifier": "every m >= 2, every task set with arbitrary deadlines, arrival sequence and G-EDF schedule", "why_tests_cant": "quantifies over all multiprocessor schedules", "anchors": ["schedcat/sched/edf/bak.py:is_schedulable", "schedcat/sched/edf/__init__.py:is_schedulable_py"]}
{"id": "C56", "title": "Baruah's test is safe", "statement": "If bar.is_schedulable(m, tasks) accepts a task set in which every task has cost <= deadline, no job misses its deadline in any global EDF schedule on m processors, although the test checks its condition only at the points of change of the demand bound function.", "quantifier": "every m >= 1, every task set, arrival sequence and G-EDF schedule", "why_tests_cant": "quantifies over all multiprocessor schedules", "anchors": ["schedcat/sched/edf/bar.py:is_schedulable"]}
{"id": "C57", "title": "the combined G-EDF test is safe for feasible constrained-deadline tasks and terminates", "statement": "If is_schedulable_py(m, tasks, ...) accepts a constrained-deadline task set with cost <= deadline for every task, no job misses its deadline in any global EDF schedule on m processors; on one processor this holds for arbitrary deadlines and any costs. On sets with cost <= deadline it always terminates.", "quantifier": "every m, every task set, every choice of options (want_ffdbf=False)", "why_tests_cant": "quantifies over all multiprocessor schedules", "anchors": ["schedcat/sched/edf/__init__.py:is_schedulable_py"]}
{"id": "C58", "title": "the iterative BCL test is safe", "statement": "If bcl_iterative.is_schedulable(m, tasks) accepts a constrained-deadline task set in which every task has cost <= deadline, no job misses its deadline in any global EDF schedule on m processors.", "quantifier": "every m >= 1, every task set, round limit, arrival sequence and G-EDF schedule", "why_tests_cant": "quantifies over all multiprocessor schedules", "anchors": ["schedcat/sched/edf/bcl_iterative.py:is_schedulable"]}
{"id": "C59", "title": "accounting never accepts a task that cannot exist", "statement": "If JLFP or PFair overhead accounting does not return False, every task it returns has a positive period and deadline and a cost of at most both.", "quantifier": "every task set and every non-negative overhead function", "why_tests_cant": "all magnitudes of overheads relative to periods", "anchors": ["schedcat/overheads/jlfp.py:charge_scheduling_overheads", "schedcat/overheads/pfair.py:charge_scheduling_overheads"]}
{"id": "C60", "title": "overheads may depend on the number of tasks", "statement": "FP overhead accounting completes without an exception for every overhead object made of linear functions of the number of tasks.", "quantifier": "every non-empty task set, every linear overhead function", "why_tests_cant": "all overhead functions; the tests use constants only", "anchors": ["schedcat/overheads/fp.py:charge_scheduling_overheads", "schedcat/util/math.py:LinearEqu.__call__"]}
{"id": "C61", "title": "the approximate load is an upper bound within epsilon", "statement": "TaskSet::approx_load(eps) returns a value that is at least (total demand in t)/t for every t > 0, and exceeds the supremum of these by at most eps.", "quantifier": "every task set with positive parameters, every eps > 0, every interval length", "why_tests_cant": "unbounded set of interval lengths", "anchors": ["native/src/tasks.cpp:TaskSet::approx_load", "native/src/tasks.cpp:Task::approx_load"]}
{"id": "C62", "title": "probabilities of CAN deadlines being met do not depend on earlier queries", "statement": "broster.get_prob_schedulable(msgs, m) and get_prob_schedulable(msgs, m, f) return the same values no matter which queries were made before on the same message: the probability of exactly f retransmissions given by the recurrence, zero if the deadline is not met with f retransmissions, and their sum when no f is given.", "quantifier": "every sequence of queries", "why_tests_cant": "history dependence through a memo on the message", "anchors": ["schedcat/sched/canbus/broster.py:get_prob_schedulable", "schedcat/sched/canbus/broster.py:is_schedulable"]}
{"id": "C63", "title": "CAN response-time analysis is safe", "statement": "If get_wctt(m, 0) plus the jitter of m is at most its deadline, then in every fault-free run of the bus (non-preemptive transmissions, highest priority first, never idle while a frame is queued) every frame of m is transmitted by its deadline.", "quantifier": "every message set and every run of the bus", "why_tests_cant": "unboundedly many runs, queueing jitter and phasings", "anchors": ["schedcat/model/canbus.py:CANMessageSet.get_wctt"]}
{"id": "C64", "title": "global FMLP blocking bounds are safe", "statement": "The blocking bound of global_fmlp_bounds is at least the total length of the conflicting requests in every pattern of delays in which each request waits for at most one request of each other task (FIFO queues) and no task issues more requests than its jobs can during the response time.", "quantifier": "every resource sharing model and every pattern of delays", "why_tests_cant": "exponentially many patterns", "anchors": ["native/src/blocking/global-fmlp.cpp:global_fmlp_bounds", "native/src/sharedres.cpp:bound_blocking"]}
{"id": "C65", "title": "global OMLP blocking bounds are safe", "statement": "The blocking bound of global_omlp_bounds on m processors is at least the total length of the conflicting requests in every pattern of delays that the two-level queue admits: at most 2m-1 requests per request, at most two per task, and FIFO if at most m+1 tasks use the resource.", "quantifier": "every resource sharing model, number of processors and pattern of delays", "why_tests_cant": "exponentially many patterns", "anchors": ["native/src/blocking/global-omlp.cpp:global_omlp_bounds", "native/src/sharedres.cpp:bound_blocking"]}
{"id": "C66", "title": "resource requirements account for every added request", "statement": "After any sequence of add_request calls on a fresh entry of a resource model, max_writes and max_reads are the numbers of added writes and reads, max_requests is their sum, the write/read/maximum lengths are the least non-negative bounds on the added lengths; convert_reads_to_writes turns all requests into writes with a length bounding both kinds and is idempotent.", "quantifier": "every sequence of added requests", "why_tests_cant": "all interleavings of reads and writes of any lengths", "anchors": ["schedcat/model/resources.py:ResourceRequirement", "schedcat/model/resources.py:ResourceRequirements"]}
{"id": "C67", "title": "time_of_first_miss returns the earliest missed deadline", "statement": "If the simulated G-EDF schedule misses a deadline, time_of_first_miss returns the earliest deadline that is missed.", "quantifier": "every task set, number of processors and interval", "why_tests_cant": "all task sets and tie-breakings", "anchors": ["schedcat/sim/edf.py:time_of_first_miss", "native/src/edf/sim.cpp:edf_first_violation"]}
{"id": "C68", "title": "no_counter_example finds every miss in the interval", "statement": "If no_counter_example returns True, no job with a deadline inside the simulated interval misses it in the simulated schedule; if it returns False, the task set is not schedulable under global EDF.", "quantifier": "every task set, number of processors and interval", "why_tests_cant": "all task sets and interval lengths", "anchors": ["schedcat/sim/edf.py:no_counter_example", "native/src/edf/sim.cpp:edf_misses_deadline"]}
{"id": "C69", "title": "the simulator honours the preemptive flag", "statement": "With preemptive=False, is_deadline_missed, time_of_first_miss and no_counter_example report about non-preemptive global EDF.", "quantifier": "every task set", "why_tests_cant": "all task sets for which the two policies differ", "anchors": ["schedcat/sim/edf.py:is_deadline_missed", "schedcat/sim/edf.py:time_of_first_miss"]}
{"id": "C70", "title": "a squeezed task set matches max_util exactly", "statement": "With squeeze=True the last task generated by TaskGenerator.tasks is scaled such that the total utilization is exactly max_util, and every task has a positive cost.", "quantifier": "every stream of draws", "why_tests_cant": "depends on the rounding of every drawn value", "anchors": ["schedcat/generator/tasks.py:TaskGenerator.tasks"]}
{"id": "C71", "title": "fixed-sum utilizations sum to the target", "statement": "StaffordRandFixedSum(n, u, 1) returns n values with sum u, and gen_taskset(..., want_integral=False) returns n tasks with total utilization u, whatever is drawn.", "quantifier": "every n and u, every stream of draws", "why_tests_cant": "must hold for every random stream; tests sample a few", "anchors": ["schedcat/generator/generator_emstada.py:StaffordRandFixedSum", "schedcat/generator/generator_emstada.py:gen_taskset"]}
{"id": "C72", "title": "periods lie in the requested range", "statement": "Periods chosen by gen_taskset lie between period_min and period_max.", "quantifier": "every range, granularity and draw", "why_tests_cant": "a violation needs a draw close to the end of the range", "anchors": ["schedcat/generator/generator_emstada.py:gen_periods", "schedcat/generator/generator_emstada.py:gen_taskset"]}
{"id": "C73", "title": "want_integral makes parameters integral", "statement": "gen_taskset(..., want_integral=True) returns tasks with integral parameters, with costs rounded up and periods rounded down.", "quantifier": "every stream of draws", "why_tests_cant": "depends on whether a rounded task still fits its period", "anchors": ["schedcat/generator/generator_emstada.py:gen_taskset", "schedcat/overheads/jlfp.py:quantize_params"]}
{"id": "C74", "title": "global fixed-priority tests are not used beyond constrained deadlines", "statement": "A global fixed-priority response-time test that accepts a task set in which some deadline exceeds its period does so only if no deadline can be missed; otherwise it refuses the set.", "quantifier": "every m, every task set with arbitrary deadlines", "why_tests_cant": "an accepted set is wrong only with respect to all schedules", "anchors": ["schedcat/sched/fp/bertogna.py", "schedcat/sched/fp/guan.py", "schedcat/sched/fp/__init__.py"]}
{"id": "C75", "title": "variables of different linear programs stay apart", "statement": "After apply_variable_prefix with two different prefixes, two linear programs have no variable in common, so merging them does not let the constraints of one restrict the other.", "quantifier": "every pair of programs and every pair of different prefixes", "why_tests_cant": "all names and prefixes", "anchors": ["schedcat/util/linprog.py:LinearProgram.apply_variable_prefix", "schedcat/util/linprog.py:LinearProgram.merge"]}
{"id": "C76", "title": "the solver is given the program that was built", "statement": "The text written by write_cplex_lp_format, read according to the LP format, denotes the same goal, objective and constraints as the LinearProgram object, whatever the number of terms per line.", "quantifier": "every linear program with an objective", "why_tests_cant": "all coefficients, bounds and lengths", "anchors": ["schedcat/util/linprog.py:LinearProgram.write_cplex_lp_format", "schedcat/util/linprog.py:write_cplex_sum"]}
{"id": "C77", "title": "whatever can be stored can be written and loaded again", "statement": "Writing a task, task set or test point does not raise an exception, and loading a written file never raises one.", "quantifier": "every task and task set that can be built through the API", "why_tests_cant": "all attribute combinations", "anchors": ["schedcat/model/serialize.py:taskset", "schedcat/model/serialize.py:parse_request", "schedcat/model/serialize.py:parse_cs"]}
{"id": "C78", "title": "semi-partitioning reports no infeasible task as assigned", "statement": "A task whose cost exceeds its deadline cannot meet it on any number of processors, so the heuristics must leave it among the unassigned tasks.", "quantifier": "every task set, affinity and chunk size, with or without splitting", "why_tests_cant": "requires parameters outside the generated ranges; the split hides the violation in a part with a negative deadline", "anchors": ["schedcat/mapping/apa.py:edf_worst_fit_decreasing_difficulty", "schedcat/mapping/apa.py:edf_first_fit_decreasing_difficulty", "schedcat/mapping/apa.py:split_task_C_equal_D"]}
{"id": "C79", "title": "GEL response-time bounds are safe in every schedule", "statement": "If bound_gedf_response_times, bound_gfl_response_times or compute_gel_pl_response_details sets response times for a set of sporadic tasks that does not overload the m processors, then in every global schedule in which the scheduler follows the given priority points (release plus relative priority point, ties broken arbitrarily) every job finishes within the response time of its task.", "quantifier": "every m, every task set, all priority points, every number of rounds, every release sequence and schedule, both implementations", "why_tests_cant": "quantifies over all schedules of unbounded length", "anchors": ["schedcat/sched/edf/gel_pl.py:bound_gedf_response_times", "schedcat/sched/edf/gel_pl.py:bound_gfl_response_times", "schedcat/sched/edf/gel_pl.py:compute_gel_pl_response_details", "native/src/edf/gel_pl.cpp:GELPl"]}
{"id": "C80", "title": "overloaded sets get no GEL response-time bound", "statement": "If the total utilization exceeds the number of processors, response times are unbounded, so the GEL analysis must report that there is no bound.", "quantifier": "every m and every overloaded task set, both implementations", "why_tests_cant": "no finite simulation shows that a bound is exceeded for every choice of bounds", "anchors": ["schedcat/sched/edf/gel_pl.py:compute_gel_pl_response_details", "native/src/edf/gel_pl.cpp:GELPl"]}
{"id": "C81", "title": "exact_wcrt returns the exact worst-case response time", "statement": "The response time that exact_wcrt sets for a task is attained: no smaller value bounds the response times of all its jobs in all uniprocessor EDF schedules.", "quantifier": "every task set with utilization below 1", "why_tests_cant": "quantifies over all schedules; the difference appears only when a release coincides with the end of a busy interval", "anchors": ["schedcat/sched/edf/gy_rta.py:exact_wcrt", "schedcat/model/tasks.py:SporadicTask.rbf"]}
{"id": "C82", "title": "The Devi/Anderson response-time bounds for preemptive global EDF are safe and exist whenever any do", "statement": "With implicit deadlines, if bound_response_times succeeds, then in every preemptive global-EDF schedule every job finishes within the response time set for its task; if it returns False, then no finite response-time bounds hold.", "quantifier": "every number of processors, task set with positive periods, legal arrival sequence, and preemptive global-EDF schedule", "why_tests_cant": "quantifies over all schedules of unbounded length; the bound limits how much work can pile up over time", "anchors": ["schedcat/sched/edf/da.py:bound_response_times", "schedcat/sched/edf/da.py:tardiness_x", "schedcat/sched/edf/da.py:has_bounded_tardiness"]}
{"id": "C83", "title": "The Devi/Anderson response-time bounds for non-preemptive global EDF are safe", "statement": "With implicit deadlines, if bound_response_times with preemptive=False succeeds, then in every non-preemptive global-EDF schedule every job finishes within the response time set for its task.", "quantifier": "every number of processors, task set with positive periods, legal arrival sequence, and non-preemptive global-EDF schedule", "why_tests_cant": "quantifies over all schedules; only an adversarial arrival shows the blocking that the bound leaves out", "anchors": ["schedcat/sched/edf/da.py:bound_response_times", "schedcat/sched/edf/da.py:np_tardiness_x"]}
{"id": "C84", "title": "The native global-EDF tests accept only task sets that never miss a deadline", "statement": "If one of GFBGedf, BakerGedf, BCLGedf, BCLIterativeGedf, RTAGedf, BaruahGedf, LAGedf, LoadGedf or GlobalEDF reports a set of tasks without self-suspensions, with constrained deadlines and without tolerated tardiness as schedulable, or edf.is_schedulable does with the native module, then no job misses its deadline in any global-EDF schedule.", "quantifier": "every number of processors, task set, option, number of iterations, order in which a priority queue returns equal elements, run-time limit, legal arrival sequence, and global-EDF schedule", "why_tests_cant": "quantifies over all schedules of unbounded length and over the timing of the tests themselves", "anchors": ["native/src/edf/gfb.cpp:GFBGedf::is_schedulable", "native/src/edf/baker.cpp:BakerGedf::is_schedulable", "native/src/edf/bcl.cpp:BCLGedf::is_schedulable", "native/src/edf/bcl_iterative.cpp:BCLIterativeGedf::is_schedulable", "native/src/edf/rta.cpp:RTAGedf::is_schedulable", "native/src/edf/baruah.cpp:BaruahGedf::is_schedulable", "native/src/edf/la.cpp:LAGedf::is_schedulable", "native/src/edf/load.cpp:LoadGedf::is_schedulable", "native/src/edf/gedf.cpp:GlobalEDF::is_schedulable", "schedcat/sched/edf/__init__.py:is_schedulable_cpp"]}
{"id": "C85", "title": "The native tests that support arbitrary deadlines accept only task sets that never miss a deadline", "statement": "BakerGedf, LAGedf, LoadGedf and GlobalEDF, which are applied to task sets with arbitrary deadlines, accept only sets in which no job misses its deadline under global EDF.", "quantifier": "every number of processors, task set with arbitrary deadlines, legal arrival sequence, and global-EDF schedule", "why_tests_cant": "quantifies over all schedules; a backlog builds up over several periods before a deadline is missed", "anchors": ["native/src/edf/baker.cpp:BakerGedf::is_schedulable", "native/src/edf/la.cpp:LAGedf::is_schedulable", "native/src/edf/load.cpp:LoadGedf::is_schedulable", "native/src/edf/gedf.cpp:GlobalEDF::is_schedulable"]}
{"id": "C86", "title": "The native and the Python global-EDF tests give the same verdict", "statement": "For every task set the native tests of Goossens et al., Baker, Bertogna et al. (both variants) and the response-time analysis return what the Python function of the same name returns.", "quantifier": "every number of processors and task set", "why_tests_cant": "two implementations with different arithmetic and data structures must agree on every input", "anchors": ["native/src/edf/gfb.cpp", "native/src/edf/baker.cpp", "native/src/edf/bcl.cpp", "native/src/edf/bcl_iterative.cpp", "native/src/edf/rta.cpp", "schedcat/sched/edf/gfb.py", "schedcat/sched/edf/bak.py", "schedcat/sched/edf/bcl.py", "schedcat/sched/edf/bcl_iterative.py", "schedcat/sched/edf/rta.py"]}
{"id": "C87", "title": "Native global-EDF tests that do not support self-suspensions never accept a self-suspending task that misses a deadline", "statement": "GFBGedf, BakerGedf, BCLGedf, BCLIterativeGedf, RTAGedf, BaruahGedf and LoadGedf reject every task set with a self-suspending task.", "quantifier": "every number of processors, option and task set with a self-suspending task", "why_tests_cant": "a missing check is only visible on inputs nobody thought of", "anchors": ["native/src/edf/rta.cpp:RTAGedf::is_schedulable", "native/src/edf/gfb.cpp", "native/src/edf/baker.cpp", "native/src/edf/bcl.cpp", "native/src/edf/bcl_iterative.cpp", "native/src/edf/baruah.cpp", "native/src/edf/load.cpp"]}
{"id": "C88", "title": "The FF-DBF test accepts only task sets that never miss a deadline, and ends", "statement": "If the FF-DBF test (Python or native), or a combined global-EDF test with want_ffdbf, reports a set of tasks with constrained deadlines as schedulable, then no job misses its deadline in any global-EDF schedule; and the test ends on every task set.", "quantifier": "every number of processors, task set, accuracy and granularity of the search, order in which a priority queue returns equal points, legal arrival sequence, and global-EDF schedule", "why_tests_cant": "quantifies over all schedules; the test looks at finitely many speeds and points only, and that no other point matters is a theorem", "anchors": ["schedcat/sched/edf/ffdbf.py:is_schedulable", "schedcat/sched/edf/ffdbf.py:test_points", "native/src/edf/ffdbf.cpp:FFDBFGedf::is_schedulable", "native/src/edf/gedf.cpp:GlobalEDF::is_schedulable", "schedcat/sched/edf/__init__.py:is_schedulable_py", "schedcat/sched/edf/__init__.py:is_schedulable_cpp"]}
{"id": "C89", "title": "Response-time bounds reported for global EDF are never exceeded", "statement": "If edf.bound_response_times returns true, then under global EDF no job of a task takes longer than the response_time stored in the task, even if the task set misses deadlines; if it returns false, no such bounds exist for implicit deadlines; it always returns one of the two.", "quantifier": "every number of processors, task set, option, legal arrival sequence, and global-EDF schedule", "why_tests_cant": "quantifies over all schedules; the function combines three analyses with different preconditions", "anchors": ["schedcat/sched/edf/__init__.py:bound_response_times", "schedcat/sched/edf/rta.py:bound_response_times", "schedcat/sched/edf/da.py:bound_response_times"]}
{"id": "C90", "title": "The classic MSRP test for partitioned EDF accepts only task sets that never miss a deadline", "statement": "If pedf_msrp_classic_is_schedulable returns true for tasks with EDF preemption levels that are assigned to processors 0 to num_cpus-1, then no job misses its deadline under partitioned EDF with the MSRP (global resources: non-preemptive FIFO spin locks, local resources: stack resource policy); the test always ends, and it decides exactly the processor-demand criterion with blocking if every task's cost includes its critical sections.", "quantifier": "every task set with resource requests and every mapping to processors, legal arrival sequence, set of requests issued at any time, order of simultaneous requests, and schedule", "why_tests_cant": "quantifies over all schedules and all interleavings of critical sections on all processors; the test examines only a few interval lengths", "anchors": ["native/src/edf/qpa_msrp.cpp:pedf_msrp_classic_is_schedulable", "native/src/edf/qpa_msrp.cpp:QPA_MSRPTest::get_demand", "native/src/edf/qpa.cpp:QPATest::is_schedulable", "native/src/blocking/msrp.cpp:msrp_bounds", "schedcat/locking/bounds.py:pedf_msrp_classic_is_schedulable"]}
{"id": "C91", "title": "Response times computed for partitioned fixed-priority scheduling with the MSRP are never exceeded", "statement": "If, after apply_msrp_bounds, the uniprocessor fixed-priority analysis accepts the tasks of a processor, then under partitioned fixed-priority scheduling with the MSRP no job of these tasks takes longer than its computed response time, which is at most its deadline, whatever happens on the other processors.", "quantifier": "every task set with resource requests and every mapping to processors, legal arrival sequence, set of requests issued at any time, order of simultaneous requests, and schedule", "why_tests_cant": "quantifies over all schedules and all interleavings of critical sections on all processors", "anchors": ["schedcat/locking/bounds.py:apply_msrp_bounds", "native/src/blocking/msrp.cpp:msrp_bounds", "schedcat/sched/fp/rta.py:bound_response_times"]}
{"id": "C92", "title": "Response times computed for global fixed-priority scheduling with priority inheritance are never exceeded", "statement": "If, after apply_classic_pip_bounds, the analysis in schedcat/sched/fp/bertogna.py accepts the tasks, then under global fixed-priority scheduling with the priority inheritance protocol no job takes longer than its computed response time, which is at most its deadline.", "quantifier": "every number of processors, task set with resource requests, legal arrival sequence, set of requests issued at any time, and schedule", "why_tests_cant": "quantifies over all schedules and all interleavings of critical sections on all processors, including chains of priority inheritance", "anchors": ["schedcat/locking/bounds.py:apply_classic_pip_bounds", "native/src/blocking/global-pip.cpp:global_pip_bounds", "schedcat/sched/fp/bertogna.py:is_schedulable"]}
{"id": "C93", "title": "Response times computed for global fixed-priority scheduling with the P-PCP are never exceeded", "statement": "If, after apply_classic_ppcp_bounds, the analysis in schedcat/sched/fp/bertogna.py accepts the tasks, then under global fixed-priority scheduling with the parallel priority ceiling protocol no job takes longer than its computed response time.", "quantifier": "every number of processors, task set with resource requests, legal arrival sequence, set of requests issued at any time, and schedule", "why_tests_cant": "quantifies over all schedules and all interleavings of critical sections; a term that is always zero does not show in tests that compare with values computed by the same code", "anchors": ["schedcat/locking/bounds.py:apply_classic_ppcp_bounds", "schedcat/locking/bounds.py:is_reasonable_priority_assignment", "native/src/blocking/ppcp.cpp:ppcp_bounds", "schedcat/sched/fp/bertogna.py:is_schedulable"]}
{"id": "C94", "title": "Blocking bounds for phase-fair reader-writer locks and the clustered RW OMLP are never exceeded", "statement": "The blocking term that apply_phase_fair_rw_bounds and apply_clustered_rw_omlp_bounds assign to a task covers the total time that the requests of a job wait plus the reported arrival blocking, and the arrival blocking covers any single request of a task of lower or equal priority in the same cluster, from the time it is issued to its completion.", "quantifier": "every number of processors per cluster, processor dedicated to interrupts, task set with read and write requests, sequence of arrivals and requests, and run of the lock in which writers are served in FIFO order and reader and writer phases alternate", "why_tests_cant": "quantifies over all interleavings of readers and writers on all processors", "anchors": ["schedcat/locking/bounds.py:apply_phase_fair_rw_bounds", "schedcat/locking/bounds.py:apply_clustered_rw_omlp_bounds", "native/src/blocking/rw-phase-fair.cpp", "native/src/sharedres.cpp:merge_rw_requests"]}
{"id": "C95", "title": "Bounds for task-fair reader-writer locks are safe", "statement": "With task-fair (FIFO) reader-writer locks, the time that the requests of a job wait is at most the blocking bound minus the arrival blocking bound computed by apply_task_fair_rw_bounds, and the arrival blocking bound covers the time from issuing to completing any request of a task with the same or a lower priority in the same cluster.", "quantifier": "every task set with read and write requirements, mapping to clusters, number of processors per cluster, dedicated interrupt processor, legal arrival sequence, and order in which requests are issued and served", "why_tests_cant": "quantifies over all interleavings of critical sections on all processors; the bound is the minimum of two analyses, each of which must be safe", "anchors": ["native/src/blocking/rw-task-fair.cpp:task_fair_rw_bounds", "native/src/blocking/rw-task-fair.cpp:tf_reader_all", "native/src/blocking/rw-task-fair.cpp:bound_blocking_all", "native/src/sharedres.cpp:merge_rw_requests", "schedcat/locking/bounds.py:apply_task_fair_rw_bounds"]}
{"id": "C96", "title": "Distinguishing reads and writes never makes bounds worse", "statement": "For the same tasks, the bounds computed by apply_task_fair_rw_bounds are not larger than those computed by apply_task_fair_mutex_bounds, which treats all requests as exclusive.", "quantifier": "every task set with read and write requirements, mapping to clusters, number of processors per cluster, and dedicated interrupt processor", "why_tests_cant": "relates two analyses on all inputs; tests compare each with fixed values", "anchors": ["native/src/blocking/rw-task-fair.cpp:task_fair_rw_bounds", "native/src/blocking/clust-omlp.cpp:task_fair_mutex_bounds", "native/src/sharedres.cpp:np_fifo_per_resource", "schedcat/locking/bounds.py:apply_task_fair_rw_bounds", "schedcat/locking/bounds.py:apply_task_fair_mutex_bounds"]}
{"id": "C97", "title": "Response times computed for partitioned fixed-priority scheduling with the FMLP+ are never exceeded", "statement": "If, after apply_part_fmlp_bounds (preemptive variant), the fixed-priority response-time analysis accepts the tasks of every processor and no computed response time exceeds the one on which the blocking bounds are based, then under partitioned fixed-priority scheduling with the preemptive FMLP+ no job takes longer than its computed response time, which is at most its deadline.", "quantifier": "every task set with resource requests, mapping to processors, legal arrival sequence, set of requests issued at any time, and schedule", "why_tests_cant": "quantifies over all schedules and all interleavings of critical sections on all processors, with self-suspensions of higher-priority jobs and priority boosting", "anchors": ["schedcat/locking/bounds.py:apply_part_fmlp_bounds", "native/src/blocking/fmlp_plus.cpp:part_fmlp_bounds", "schedcat/sched/fp/rta.py:bound_response_times"]}
{"id": "C98", "title": "Response times computed for partitioned fixed-priority scheduling with the MPCP are never exceeded", "statement": "If, after apply_mpcp_bounds (without virtual spinning), the fixed-priority response-time analysis accepts the tasks of every processor, then under partitioned fixed-priority scheduling with the multiprocessor priority-ceiling protocol (MPCP) no job takes longer than its computed response time, which is at most its deadline. The computation of the bounds always ends.", "quantifier": "every task set with distinct priorities and resource requests, mapping to processors, legal arrival sequence, set of requests issued at any time, and schedule", "why_tests_cant": "quantifies over all schedules and all interleavings of critical sections on all processors, with priority-ordered queues, sections preempting sections of lower ceiling and self-suspensions of higher-priority jobs", "anchors": ["schedcat/locking/bounds.py:apply_mpcp_bounds", "native/src/blocking/mpcp.cpp:mpcp_bounds", "schedcat/sched/fp/rta.py:bound_response_times"]}
{"id": "C99", "title": "Response times computed for partitioned fixed-priority scheduling with the DPCP are never exceeded", "statement": "If, after apply_dpcp_bounds, the fixed-priority response-time analysis accepts the tasks of every processor, then under partitioned fixed-priority scheduling with the distributed priority-ceiling protocol (DPCP), in which requests are executed by agents on the processor to which resource_mapping assigns the resource, or on a dedicated synchronization processor if it does not assign it, no job takes longer than its computed response time, which is at most its deadline.", "quantifier": "every task set with distinct priorities and resource requests, mapping of tasks and resources to processors, legal arrival sequence, set of requests issued at any time, and schedule", "why_tests_cant": "quantifies over all schedules and all interleavings of requests on all processors, with agents that preempt jobs, priority ceilings on each processor and self-suspensions of higher-priority jobs", "anchors": ["schedcat/locking/bounds.py:apply_dpcp_bounds", "native/src/blocking/dpcp.cpp:dpcp_bounds", "native/include/sharedres_types.h:ResourceLocality", "schedcat/sched/fp/rta.py:bound_response_times"]}
{"id": "C100", "title": "Response times computed with the holistic MSRP analysis are never exceeded", "statement": "If, after apply_msrp_bounds_holistic, the fixed-priority response-time analysis accepts the tasks of every processor with response times no longer than those assumed for the blocking bounds, then under partitioned fixed-priority scheduling with the MSRP (non-preemptive FIFO spin locks for resources shared between processors, the stack resource policy for local ones) no job takes longer than its computed response time, which is at most its deadline.", "quantifier": "every task set with resource requests, assignment of tasks to processors, legal arrival sequence, set of requests issued at any time, and schedule", "why_tests_cant": "quantifies over all schedules and all interleavings of requests on all processors; the bounds on spinning rely on the response times of all other tasks, which in turn rely on the bounds on spinning", "anchors": ["schedcat/locking/bounds.py:apply_msrp_bounds_holistic", "native/src/blocking/msrp-holistic.cpp:msrp_bounds_holistic", "native/src/blocking/msrp-holistic.cpp:pcp_blocking", "native/src/sharedres.cpp:get_local_resources", "schedcat/sched/fp/rta.py:bound_response_times"]}
{"id": "C101", "title": "Each variable of a blocking analysis' linear program stands for one thing", "statement": "In the LP-based blocking analyses two lookups yield the same variable exactly if they are for the same kind of blocking, task, request and resource, whenever the limits checked by the code are respected.", "quantifier": "every sequence of lookups and every start number", "why_tests_cant": "a clash needs a particular combination of large numbers, silently drops blocking from the bound and is not visible in the result", "anchors": ["native/include/lp_common.h:VarMapper", "native/include/linprog/varmapperbase.h:VarMapperBase"]}
{"id": "C102", "title": "Response times computed with the LP-based MSRP analysis are never exceeded", "statement": "If, after apply_pfp_lp_msrp_bounds with an LP solver that finds optimal solutions, the fixed-priority response-time analysis accepts the tasks of every processor with response times no longer than those assumed for the blocking bounds, then under partitioned fixed-priority scheduling with the MSRP no job takes longer than its computed response time, which is at most its deadline.", "quantifier": "every task set with resource requests, assignment of tasks to processors, optimal solver, legal arrival sequence, set of requests issued at any time, and schedule", "why_tests_cant": "quantifies over all schedules and all interleavings of requests on all processors; a constraint that excludes a possible schedule makes bounds too small only in rare cases", "anchors": ["schedcat/locking/bounds.py:apply_pfp_lp_msrp_bounds", "native/src/blocking/linprog/lp_spinlock_msrp.cpp:lp_pfp_msrp_bounds", "native/src/blocking/linprog/lp_spinlocks.cpp:add_common_spinlock_constraints", "native/src/blocking/linprog/lp_spinlocks.cpp:set_spinlock_blocking_objective", "schedcat/sched/fp/rta.py:bound_response_times"]}
{"id": "C103", "title": "Response times computed with the LP-based analysis of unordered spin locks are never exceeded", "statement": "The same holds for apply_pfp_lp_baseline_spinlock_bounds and apply_pfp_lp_unordered_bounds, under partitioned fixed-priority scheduling with non-preemptive spin locks that serve waiting requests in any order.", "quantifier": "every task set with resource requests, assignment of tasks to processors, optimal solver, legal arrival sequence, set of requests issued at any time, order of service, and schedule", "why_tests_cant": "quantifies over all schedules and all orders in which requests are served; the bound on waiting times is the result of a fixed-point iteration that may not converge", "anchors": ["schedcat/locking/bounds.py:apply_pfp_lp_baseline_spinlock_bounds", "schedcat/locking/bounds.py:apply_pfp_lp_unordered_bounds", "native/src/blocking/linprog/lp_spinlocks.cpp:add_common_spinlock_constraints", "native/src/blocking/linprog/lp_spinlock_unordered.cpp:lp_pfp_unordered_spinlock_bounds", "native/src/blocking/linprog/lp_spinlock_unordered.cpp:bound_wait_time"]}
{"id": "C104", "title": "Response times computed with the LP-based FMLP+ analysis are never exceeded", "statement": "If, after apply_lp_part_fmlp_bounds with an LP solver that finds optimal solutions, the fixed-priority response-time analysis accepts the tasks of every processor with response times no longer than those assumed for the blocking bounds, then under partitioned fixed-priority scheduling with the FMLP+ (FIFO queues, priority boosting in the order of the requests) no job takes longer than its computed response time.", "quantifier": "every task set with resource requests, assignment of tasks to processors, optimal solver, legal arrival sequence, set of requests issued at any time, and schedule", "why_tests_cant": "quantifies over all schedules and all interleavings of requests on all processors; which part of a bound counts as self-suspension depends on the optimal solution that the solver returns, of which there are many", "anchors": ["schedcat/locking/bounds.py:apply_lp_part_fmlp_bounds", "native/src/blocking/linprog/lp_fmlp.cpp:lp_part_fmlp_bounds", "native/src/blocking/linprog/lp_common.cpp:set_blocking_objective_part_shm", "native/src/blocking/linprog/lp_common.cpp:add_topology_constraints_shm", "schedcat/sched/fp/rta.py:bound_response_times"]}
{"id": "C105", "title": "Response times computed with the LP-based MPCP analysis are never exceeded", "statement": "If, after apply_lp_mpcp_bounds with an LP solver that finds optimal solutions, the fixed-priority response-time analysis accepts the tasks of every processor with response times no longer than those assumed for the blocking bounds, then under partitioned fixed-priority scheduling with the MPCP (priority-ordered queues, sections at their remote ceilings) no job takes longer than its computed response time.", "quantifier": "every task set with resource requests and unique priorities, assignment of tasks to processors, optimal solver, legal arrival sequence, set of requests issued at any time, and schedule", "why_tests_cant": "quantifies over all schedules and all interleavings of requests on all processors; the bounds use a fixed-point iteration that may be given up, and a constraint that excludes a possible schedule makes bounds too small only in rare cases", "anchors": ["schedcat/locking/bounds.py:apply_lp_mpcp_bounds", "native/src/blocking/linprog/lp_mpcp.cpp:lp_mpcp_bounds", "native/src/blocking/linprog/lp_mpcp.cpp:bound_remote_delay", "native/src/blocking/linprog/lp_mpcp.cpp:add_direct_blocking_constraints", "native/src/blocking/linprog/lp_common.cpp:add_local_lower_priority_constraints_shm", "schedcat/sched/fp/rta.py:bound_response_times"]}
{"id": "C106", "title": "Response times computed with the LP-based DPCP analysis are never exceeded", "statement": "If, after apply_lp_dpcp_bounds with an LP solver that finds optimal solutions, the fixed-priority response-time analysis accepts the tasks of every processor with response times no longer than those assumed for the blocking bounds, then under partitioned fixed-priority scheduling with the DPCP (agents on synchronization processors, priority ceilings) no job takes longer than its computed response time.", "quantifier": "every task set with resource requests and unique priorities, assignment of tasks and resources to processors, optimal solver, legal arrival sequence, set of requests issued at any time, and schedule", "why_tests_cant": "quantifies over all schedules and all interleavings of requests on all processors; the bounds use a fixed-point iteration that may be given up, and which part of a bound counts as self-suspension depends on the optimal solution found", "anchors": ["schedcat/locking/bounds.py:apply_lp_dpcp_bounds", "native/src/blocking/linprog/lp_dpcp.cpp:lp_dpcp_bounds", "native/src/blocking/linprog/lp_dpcp.cpp:bound_wait_time", "native/src/blocking/linprog/lp_dpcp.cpp:add_max_wait_time_constraints", "native/src/blocking/linprog/lp_common.cpp:add_topology_constraints", "schedcat/sched/fp/rta.py:bound_response_times"]}
{"id": "C107", "title": "Response times computed with the LP-based DFLP analysis are never exceeded", "statement": "If, after apply_lp_dflp_bounds with an LP solver that finds optimal solutions, the fixed-priority response-time analysis accepts the tasks of every processor with response times no longer than those assumed for the blocking bounds, then under partitioned fixed-priority scheduling with the DFLP (agents on synchronization processors, served in FIFO order) no job takes longer than its computed response time.", "quantifier": "every task set with resource requests and unique priorities, assignment of tasks and resources to processors, optimal solver, legal arrival sequence, set of requests issued at any time, and schedule", "why_tests_cant": "quantifies over all schedules and all interleavings of requests on all processors; which part of a bound counts as self-suspension depends on the optimal solution that the solver returns, of which there are many", "anchors": ["schedcat/locking/bounds.py:apply_lp_dflp_bounds", "native/src/blocking/linprog/lp_dflp.cpp:lp_dflp_bounds", "native/src/blocking/linprog/lp_dflp.cpp:add_fifo_cluster_constraints", "native/src/blocking/linprog/lp_dflp.cpp:add_fifo_resource_constraints", "native/src/blocking/linprog/lp_common.cpp:add_local_lower_priority_constraints", "schedcat/sched/fp/rta.py:bound_response_times"]}
{"id": "C108", "title": "Response times computed with the LP-based analysis of priority-ordered spin locks are never exceeded", "statement": "If, after apply_pfp_lp_prio_bounds with an LP solver that finds optimal solutions, the fixed-priority response-time analysis accepts the tasks of every processor with response times no longer than those assumed for the blocking bounds, then under partitioned fixed-priority scheduling with non-preemptive spin locks that serve waiting requests in the order of their priorities (ties in any order) no job takes longer than its computed response time.", "quantifier": "every task set with resource requests, request priorities and unique task priorities, assignment of tasks to processors, optimal solver, legal arrival sequence, set of requests issued at any time, and schedule", "why_tests_cant": "quantifies over all schedules and all interleavings of requests on all processors; a test compares the bounds of some task sets with recorded numbers and cannot see that the request priorities never reach the analysis", "anchors": ["schedcat/locking/bounds.py:apply_pfp_lp_prio_bounds", "schedcat/locking/bounds.py:get_cpp_model", "native/include/sharedres_types.h:add_request", "native/src/blocking/linprog/lp_spinlock_prio.cpp:lp_pfp_prio_spinlock_bounds", "native/src/blocking/linprog/lp_spinlock_prio.cpp:bound_wait_time_prio", "native/src/blocking/linprog/lp_spinlock_prio.cpp:add_prio_arrival_blocking_HP_constraints", "schedcat/sched/fp/rta.py:bound_response_times"]}
{"id": "C109", "title": "Response times computed with the LP-based analysis of priority-ordered spin locks with FIFO ties are never exceeded", "statement": "The same after apply_pfp_lp_prio_fifo_bounds, for non-preemptive spin locks that serve waiting requests in the order of their priorities and requests of equal priority in FIFO order.", "quantifier": "every task set with resource requests, request priorities and unique task priorities, assignment of tasks to processors, optimal solver, legal arrival sequence, set of requests issued at any time, and schedule", "why_tests_cant": "quantifies over all schedules and all interleavings of requests on all processors; a test compares the bounds of some task sets with recorded numbers and cannot see that the request priorities never reach the analysis", "anchors": ["schedcat/locking/bounds.py:apply_pfp_lp_prio_fifo_bounds", "schedcat/locking/bounds.py:get_cpp_model", "native/include/sharedres_types.h:add_request", "native/src/blocking/linprog/lp_spinlock_prio_fifo.cpp:lp_pfp_prio_fifo_spinlock_bounds", "native/src/blocking/linprog/lp_spinlock_prio_fifo.cpp:bound_wait_time_prio_fifo", "native/src/blocking/linprog/lp_spinlock_prio_fifo.cpp:add_prio_fifo_arrival_blocking_HP_constraints", "schedcat/sched/fp/rta.py:bound_response_times"]}
{"id": "C110", "title": "The nesting relation of critical sections is the transitive closure", "statement": "For critical sections registered through the API, if no resource can be requested again while it is held, the nesting relationship has an entry for exactly the requested resources, and the entry of a resource q consists of exactly the resources that some task requests while q is held, directly or through a chain of further nested requests (possibly of other tasks).", "quantifier": "every list of tasks, every nesting of critical sections without cycles, every order of iteration over hash maps and hash sets", "why_tests_cant": "a recursive computation with memoisation over unordered containers; a test fixes one nesting structure and one iteration order", "anchors": ["native/src/blocking/nested_cs.cpp:get_transitive_nesting_relationship", "native/src/blocking/nested_cs.cpp:build_trans_nest_rel", "native/include/nested_cs.h:CriticalSectionsOfTask::add"]}
{"id": "C111", "title": "Containing critical sections are determined exactly", "statement": "For critical sections registered through the API, the set of outer locks of a critical section consists of exactly the resources of the critical sections that contain it; a critical section is reported to have nested requests exactly if one is registered inside it; the outermost critical section is reached, contains the given one, and is not contained in another. All of these computations end.", "quantifier": "every list of critical sections built through the API and every critical section in it", "why_tests_cant": "loops along parent indices of arbitrary depth; a test fixes one nesting depth", "anchors": ["native/include/nested_cs.h:get_outermost", "native/include/nested_cs.h:has_nested_requests", "native/src/blocking/nested_cs.cpp:get_outer_locks"]}
{"id": "C112", "title": "Common outer locks of two critical sections are detected exactly", "statement": "has_common_outer of two critical sections holds exactly if some resource is held around both of them (so that they cannot block each other).", "quantifier": "every two lists of critical sections built through the API and every critical section in each", "why_tests_cant": "relates two arbitrary nesting structures; a test compares chosen pairs and may pick structures whose indices coincide", "anchors": ["native/include/nested_cs.h:has_common_outer", "native/src/blocking/nested_cs.cpp:has_common_outer"]}
{"id": "C113", "title": "The affinity feasibility test is exact", "statement": "For implicit-deadline tasks without self-suspensions, each with positive cost and at least one permitted processor, the linear-programming test for arbitrary processor affinities never aborts. If it returns a solution, some slot length exists such that every legal arrival sequence has a preemptive schedule that respects all affinities and meets all deadlines. If it returns no solution, there is a legal arrival sequence for which no such schedule exists, however short the slots are. The returned fractions are non-negative, vanish on processors that a task may not use, sum to one per task and do not overload any processor.", "quantifier": "every task set and every assignment of affinities of the stated kind, every arrival sequence, every schedule and slot length, every exact solver of linear programs", "why_tests_cant": "a test evaluates a few task sets; that a solution yields a schedule for all arrival sequences, and that its absence rules out every schedule, ranges over infinitely many schedules", "anchors": ["native/src/apa_feas.cpp:apa_implicit_deadline_feasible", "native/src/apa_feas.cpp:APAImplicitDeadlineFeasibilityLP", "native/include/apa_feas.h:Affinities", "schedcat/sched/__init__.py:get_native_affinities"]}
{"id": "C114", "title": "The CAN simulator ends and simulates a priority-driven bus", "statement": "For periodic messages with positive periods, any sequence of bus faults in ascending order and any host faults, the simulation of a CAN bus ends. What it observes is legal: the bus transmits one frame at a time, always one of highest priority among the waiting messages, without idling while a message waits; a transmission takes as long as the frame, fails exactly if a bus fault occurs during it, and is followed by 3 bit times of interframe space or 29 bit times of error handling; only jobs of critical messages are omitted. Unless a callback aborts the simulation, nothing that happens up to the requested time is missing.", "quantifier": "every message set with positive periods, every end of the simulation, every sequence of faults, every way in which queues break ties, every set of callbacks", "why_tests_cant": "a test simulates a few message sets with particular tie-breaking; bus faults, host faults and ties combine in unboundedly many ways", "anchors": ["native/include/canbus/can_sim.h:CANBusScheduler", "native/src/canbus/can_sim.cpp:CANBusScheduler", "native/include/schedule_sim.h:ProcessorTemplate", "native/src/schedule_sim.cpp:Job"]}
{"id": "C115", "title": "The CAN simulator transmits the most recent released job", "statement": "Whenever the simulator starts to transmit a message, the transmitted job has been released, and no later job of the message has been released.", "quantifier": "every message set with positive periods, every sequence of faults, every tie-breaking", "why_tests_cant": "the wrong choice needs a transmission that starts exactly one bit time before a release; random tests rarely hit it", "anchors": ["native/src/canbus/can_sim.cpp:CANJob::update_seqno", "native/src/canbus/can_sim.cpp:CANBusScheduler::advance_time"]}
{"id": "C116", "title": "Completion times of the CAN simulator", "statement": "The completion time reported for a job of a message is the time at which it is completely transmitted on a bus without faults. If the job is not completely transmitted by the requested end of the simulation, the caller can tell.", "quantifier": "every message set with positive periods, every job, every end of the simulation", "why_tests_cant": "a test asks for a few jobs that complete; for others the result is whatever the memory contained", "anchors": ["native/src/canbus/job_completion_stats.cpp:get_job_completion_time", "native/include/canbus/job_completion_stats.h:get_completion_time"]}
{"id": "C117", "title": "Each round of a message is counted once and correctly", "statement": "After the CAN simulator has simulated some message, the rounds whose deadlines have passed are counted, each exactly once: as correct for the synchronous protocol if the message (without replicas and host faults) was completely transmitted by its deadline, as faulty otherwise.", "quantifier": "every message set with positive periods, every sequence of faults, every tie-breaking, every end of the simulation", "why_tests_cant": "the wrong count needs a job that waits for longer than a period; its effect is hidden in an average over thousands of simulations", "anchors": ["native/src/canbus/tardiness_stats.cpp:CANBusTardinessStats", "native/include/canbus/tardiness_stats.h:CANBusTardinessStats", "native/src/canbus/can_sim.cpp:CANBusScheduler"]}
{"id": "C118", "title": "A corrupted message counts as faulty", "statement": "A message that is corrupted by a host fault between its release and its transmission counts as a faulty message of its round, for the synchronous and the asynchronous protocol.", "quantifier": "every critical message, every sequence of host faults", "why_tests_cant": "the two protocols are evaluated in the same simulation; a test of either of them shows nothing wrong", "anchors": ["native/src/canbus/tardiness_stats.cpp:CANBusTardinessStats::job_completed", "native/src/canbus/can_sim.cpp:CANJob::is_commission"]}
{"id": "C119", "title": "The failure probability is the average over all iterations", "statement": "The computation of failure probabilities ends, and each reported probability is the average of the fractions of faulty rounds of independent simulations, one for each sequence of faults that was drawn: simulating all iterations without faults only once, and resetting the simulator after each iteration, does not change the result.", "quantifier": "every message set with positive periods, every number of iterations, every sequence of drawn faults and coins", "why_tests_cant": "that the state of a simulation leaks into the next one can only be seen by comparing the averages with those of separate simulations, for random inputs", "anchors": ["native/src/canbus/tardiness_stats.cpp:simulate_for_tardiness_stats", "native/src/canbus/can_sim.cpp:CANBusScheduler::reset_sim_state", "native/include/canbus/tardiness_stats.h:reset_hosts_stats"]}
{"id": "C120", "title": "Tasks that the LP-based test for partitioned EDF with MSRP accepts meet their deadlines", "statement": "If the LP-based schedulability test for partitioned EDF with the MSRP accepts a set of tasks, no job misses its deadline in any run of these tasks under partitioned EDF and the MSRP.", "quantifier": "every set of tasks with resource requests, every assignment to processors, every run, every solver of linear programs that returns optimal solutions", "why_tests_cant": "a test can run a few schedules; that no arrival pattern and no interleaving of requests leads to a deadline miss cannot be tested", "anchors": ["native/src/blocking/linprog/lp_pedf_analysis.cpp:PEDFBlockingAnalysis::is_schedulable", "native/src/blocking/linprog/lp_pedf_msrp.cpp:lp_pedf_msrp_is_schedulable", "native/src/blocking/linprog/lp_pedf_spinlocks_common.cpp"]}
{"id": "C121", "title": "The LP-based test for partitioned EDF with MSRP terminates", "statement": "The LP-based schedulability test for partitioned EDF with the MSRP returns a result.", "quantifier": "every set of tasks with utilization below one, every optimal solver", "why_tests_cant": "an endless loop is not a failing assertion; it needs particular combinations of periods and deadlines of tasks of other processors", "anchors": ["native/src/blocking/linprog/lp_pedf_analysis.cpp:PEDFBlockingAnalysis::last_check_point_before"]}
{"id": "C122", "title": "The G-FRL analysis returns response-time bounds for all tasks with bounded tardiness", "statement": "If the tasks do not overload the processors and no task exceeds its period, `gfrl.bound_response_times` returns true and stores a response-time bound with each task; otherwise it returns false.", "quantifier": "every number of processors, every set of tasks", "why_tests_cant": "tests of some sets of tasks cannot show that no set of tasks at all gets bounds; there is no test of this module", "anchors": ["schedcat/sched/gfrl.py:bound_response_times", "schedcat/sched/gfrl.py:compute_response_bounds", "schedcat/sched/edf/gel_pl.py:compute_response_bounds"]}
{"id": "C123", "title": "The priority points of the G-FRL analysis give all tasks the same relative response-time bound", "statement": "If `gfrl.bound_response_times` assigns priority points to the tasks, there is one ratio L such that under a global scheduler with these priority points every job finishes within L times its relative deadline; the ratio is the unique solution of the equations of the analysis.", "quantifier": "every number of processors, every set of tasks, every arrival sequence, every schedule of a scheduler with these (fractional) priority points", "why_tests_cant": "a test compares a few numbers; the bound ranges over all schedules, and the uniqueness over all rational numbers", "anchors": ["schedcat/sched/gfrl.py:compute_response_bounds", "schedcat/sched/gfrl.py:func_val"]}
{"id": "C124", "title": "The G-FRL analysis finds its priority points for every task set with bounded tardiness", "statement": "If there is a processor and a task, periods and deadlines are positive, the tasks do not overload the processors and no task exceeds its period, then the tracing of the function in `gfrl.bound_response_times` ends, its assertions hold, and the call assigns a priority point to each task. The common ratio of response times and deadlines thus exists.", "quantifier": "every number of processors, every set of tasks with positive periods and deadlines", "why_tests_cant": "the tracing visits a number of slope changes that grows with the tasks, in an order that depends on ties; tests can only cover some of the orders", "anchors": ["schedcat/sched/gfrl.py:compute_response_bounds", "schedcat/sched/gfrl.py:bound_response_times"]}
{"id": "C125", "title": "The LP-based analysis of global scheduling with FIFO semaphores and no progress mechanism is safe", "statement": "If the response times assumed for the tasks (at most deadlines and periods) are confirmed by `apply_no_progress_fifo_bounds`, that is, if for each task the cost and the bound by the LP are together at most the response time assumed, then in every run under global fixed-priority scheduling with FIFO semaphores and without progress mechanism each job completes within the assumed response time of its task.", "quantifier": "every set of tasks and requests, every number of processors, every optimal solution of the linear programs, every run", "why_tests_cant": "the LP bounds infinitely many schedules, and a schedule that exceeds an unsafe bound is a rare alignment of arrivals, preemptions and requests", "anchors": ["native/src/blocking/linprog/lp_no_progress_fifo.cpp:lp_no_progress_fifo_bounds", "native/src/blocking/linprog/lp_global.cpp:GlobalSuspensionAwareLP", "native/src/blocking/linprog/lp_global_no.cpp:GlobalNoProgressMechanismLP", "native/src/blocking/linprog/lp_global_fifo.cpp:GlobalFIFOQueuesLP", "schedcat/locking/bounds.py:apply_no_progress_fifo_bounds"]}
{"id": "C126", "title": "The LP-based analysis of global scheduling with the FMLP is safe", "statement": "If the response times assumed for the tasks (at most deadlines and periods) are confirmed by `apply_sa_gfmlp_bounds`, that is, if for each task the cost and the bound by the LP are together at most the response time assumed, then in every run under global fixed-priority scheduling with FIFO semaphores and priority inheritance each job completes within the assumed response time of its task.", "quantifier": "every set of tasks and requests, every number of processors, every optimal solution of the linear programs, every run", "why_tests_cant": "the LP bounds infinitely many schedules, and a schedule that exceeds an unsafe bound is a rare alignment of arrivals, preemptions and inherited priorities", "anchors": ["native/src/blocking/linprog/lp_sa_gfmlp.cpp:lp_sa_gfmlp_bounds", "native/src/blocking/linprog/lp_global.cpp:GlobalSuspensionAwareLP", "native/src/blocking/linprog/lp_global_pi.cpp:GlobalPrioInheritanceLP", "native/src/blocking/linprog/lp_global_fifo.cpp:GlobalFIFOQueuesLP", "schedcat/locking/bounds.py:apply_sa_gfmlp_bounds"]}
{"id": "C127", "title": "The LP-based analysis of global scheduling with priority-ordered semaphores is safe", "statement": "If the response times assumed for the tasks (at most deadlines and periods) are confirmed by `apply_no_progress_priority_bounds`, that is, if for each task the cost and the bound by the LP are together at most the response time assumed, then in every run under global fixed-priority scheduling with priority-ordered semaphores and without a progress mechanism each job completes within the assumed response time of its task.", "quantifier": "every set of tasks and requests, every number of processors, every optimal solution of the linear programs, every run", "why_tests_cant": "the LP bounds infinitely many schedules; the fixed-point iterations for hold times and wait times must be safe for every schedule, too", "anchors": ["native/src/blocking/linprog/lp_no_progress_priority.cpp:lp_no_progress_priority_bounds", "native/src/blocking/linprog/lp_global_prio.cpp:GlobalPrioQueuesLP", "native/src/blocking/linprog/lp_global_no.cpp:GlobalNoProgressMechanismLP", "schedcat/locking/bounds.py:apply_no_progress_priority_bounds"]}
{"id": "C128", "title": "The LP-based analysis of global scheduling with the priority-inheritance protocol is safe", "statement": "If the response times assumed for the tasks (at most deadlines and periods) are confirmed by `apply_pip_bounds`, that is, if for each task the cost and the bound by the LP are together at most the response time assumed, then in every run under global fixed-priority scheduling with priority-ordered semaphores and priority inheritance each job completes within the assumed response time of its task.", "quantifier": "every set of tasks and requests, every number of processors, every optimal solution of the linear programs, every run", "why_tests_cant": "the LP bounds infinitely many schedules; the interference by sections that inherit priorities occurs only in rare alignments", "anchors": ["native/src/blocking/linprog/lp_global_pip.cpp:lp_global_pip_bounds", "native/src/blocking/linprog/lp_global_prio.cpp:GlobalPrioQueuesLP", "native/src/blocking/linprog/lp_global_pi.cpp:GlobalPrioInheritanceLP", "schedcat/locking/bounds.py:apply_pip_bounds"]}
{"id": "C129", "title": "The LP-based analyses of global scheduling with priority queues end", "statement": "apply_no_progress_priority_bounds and apply_pip_bounds return: the iterations for resource-hold times and wait times end after at most D + 2 steps each, where D is the largest deadline.", "quantifier": "every set of tasks and requests whose costs do not exceed the assumed response times, every number of processors, every behaviour of the solver", "why_tests_cant": "an iteration that oscillates or diverges may do so only for rare parameters", "anchors": ["native/src/blocking/linprog/lp_global_prio.cpp:resource_wait_time", "native/src/blocking/linprog/lp_global_no.cpp:resource_hold_time", "native/src/blocking/linprog/lp_global_pi.cpp:resource_hold_time"]}
{"id": "C130", "title": "The LP-based test of partitioned EDF with preemptive FIFO spin locks is safe", "statement": "If pedf_fifo_preempt_is_schedulable returns true, no job of the tasks misses a deadline under partitioned EDF with FIFO spin locks with preemptable spinning.", "quantifier": "every task set, assignment to processors, arrival pattern and behaviour of the critical sections", "why_tests_cant": "a counterexample needs a task set together with an adversarial schedule; the code runs without an error", "anchors": ["native/src/blocking/linprog/lp_pedf_fifo_preempt.cpp:lp_pedf_fifo_preempt_is_schedulable", "native/src/blocking/linprog/lp_pedf_spinlocks_common.cpp:add_exclude_non_conflicting_local_resources"]}
{"id": "C131", "title": "The LP-based test of partitioned EDF with non-preemptive lock-free objects is safe", "statement": "If pedf_lockfree_NP_is_schedulable returns true, no job of the tasks misses a deadline under partitioned EDF with non-preemptive commit loops.", "quantifier": "every task set, assignment to processors, arrival pattern and sequence of conflicting commits", "why_tests_cant": "a counterexample needs a task set together with an adversarial schedule; the code runs without an error", "anchors": ["native/src/blocking/linprog/lp_pedf_lockfree_NP.cpp:add_rta_based_bound_on_remote_conflicts"]}
{"id": "C132", "title": "The LP-based test of partitioned EDF with preemptive lock-free objects is safe", "statement": "If pedf_lockfree_preempt_is_schedulable returns true, no job of the tasks misses a deadline under partitioned EDF with preemptable commit loops.", "quantifier": "every task set, assignment to processors, arrival pattern and sequence of conflicting commits", "why_tests_cant": "a counterexample needs a task set together with an adversarial schedule; the code runs without an error", "anchors": ["native/src/blocking/linprog/lp_pedf_lockfree_preempt.cpp:get_max_commit_length"]}
{"id": "C133", "title": "The LP-based tests of partitioned EDF with preemptive spin locks or lock-free objects end", "statement": "pedf_fifo_preempt_is_schedulable, pedf_lockfree_preempt_is_schedulable and pedf_lockfree_NP_is_schedulable return for all task sets whose processors are not overutilized.", "quantifier": "every task set with a utilization below one on each processor, every optimal behaviour of the solver", "why_tests_cant": "an endless loop cannot be observed by a finite test run", "anchors": ["native/src/blocking/linprog/lp_pedf_analysis.cpp:last_check_point_before"]}
{"id": "C134", "title": "The LP-based analysis of the OMIP bounds suspension-oblivious blocking", "statement": "Under clustered fixed-priority scheduling with the OMIP, no job is blocked (in the suspension-oblivious sense) longer than the bound that apply_omip_bounds computes for its task.", "quantifier": "every task set, arrival pattern and behaviour of the critical sections in which jobs complete within their response times, and every optimal solution of the programs", "why_tests_cant": "a counterexample needs a task set together with an adversarial schedule; the code runs without an error", "anchors": ["schedcat/locking/bounds.py:apply_omip_bounds", "native/src/blocking/linprog/lp_omip.cpp:lp_omip_bounds", "native/src/blocking/linprog/lp_omip.cpp:add_local_cluster_constraints"]}
{"id": "C135", "title": "Overhead files are loaded faithfully", "statement": "Overheads.from_file and CacheDelay.from_file return, for every overhead with a column in the file, an approximation of the samples in this column (the monotone envelope by default, the plain interpolation with non_decreasing=False), and zero for every other overhead.", "quantifier": "every file with distinct labels, rows of equal length and increasing task counts or working-set sizes, every scale factor, every custom field mapping", "why_tests_cant": "the order of columns, missing columns, custom fields and sample values vary arbitrarily; the tests load one file with default parameters", "anchors": ["schedcat/overheads/model.py:Overheads.from_file", "schedcat/overheads/model.py:Overheads.load_approximations", "schedcat/overheads/model.py:CacheDelay.from_file"]}
{"id": "C136", "title": "Columns of CSV files are found under their label and their number", "statement": "load_columns returns each column of a file under its label and under its number, with the converted entries of all rows that are not empty.", "quantifier": "every header and every list of rows", "why_tests_cant": "headers and rows vary arbitrarily; no test loads a file with repeated labels or empty lines", "anchors": ["schedcat/util/csv.py:load_columns"]}
{"id": "C137", "title": "is_constant decides whether a function is constant", "statement": "is_constant() of a linear function or an interpolation is true if and only if the function has the same value everywhere.", "quantifier": "every linear function and every list of samples", "why_tests_cant": "no test calls the method for interpolations", "anchors": ["schedcat/util/math.py:LinearEqu.is_constant", "schedcat/util/math.py:PieceWiseLinearEqu.is_constant"]}
{"id": "C138", "title": "The LP-based analysis of the generalized FMLP+ is safe", "statement": "If the response-time test accepts a task set after apply_generalized_fmlp_bounds, then no job misses its deadline in any run with the FMLP+.", "quantifier": "every task set, every resource usage, every optimal solution of the linear programs, every run", "why_tests_cant": "the bounds must cover every pattern of arrivals, requests and preemptions; the tests compare the bounds of a few task sets", "anchors": ["native/src/blocking/linprog/lp_gfmlp.cpp:lp_gfmlp_bounds", "schedcat/locking/bounds.py:apply_generalized_fmlp_bounds", "native/include/sharedres_types.h:get_max_lower_prio_jobs"]}
{"id": "C139", "title": "The LP-based analysis of the P-PCP is safe", "statement": "If for every task the cost and the bound that apply_ppcp_bounds computes are together no more than the response time that was assumed, then no job takes longer than this response time in any run of global fixed-priority scheduling with the parallel priority ceiling protocol.", "quantifier": "every task set, every resource usage, every number of processors, every optimal solution of the linear programs, every run", "why_tests_cant": "the bounds must cover every pattern of arrivals, requests and stalled requests; the tests compare the bounds of a few task sets", "anchors": ["native/src/blocking/linprog/lp_ppcp.cpp:lp_ppcp_bounds", "schedcat/locking/bounds.py:apply_ppcp_bounds"]}
{"id": "C140", "title": "The ILP-based analysis of nested FIFO spin locks is safe", "statement": "If the response-time analysis accepts a task set after apply_pfp_nested_fifo_spinlock_bounds and no computed response time exceeds the one that was assumed, then no job takes longer than its computed response time in any run of partitioned fixed-priority scheduling with non-preemptive FIFO spin locks.", "quantifier": "every task set, every set of (nested) critical sections, every optimal solution of the integer linear programs, every run", "why_tests_cant": "the bounds must cover every pattern of arrivals, requests and transitive blocking; the tests compare the bounds of a few task sets", "anchors": ["native/src/blocking/linprog/lp_spinlock_nested_fifo.cpp:lp_nested_fifo_spinlock_bounds", "schedcat/locking/bounds.py:apply_pfp_nested_fifo_spinlock_bounds"]}
{"id": "C141", "title": "The ILP-based analysis of nested FIFO spin locks returns a bound for each task", "statement": "For every task set with critical sections that were added through the API, apply_pfp_nested_fifo_spinlock_bounds reads only existing elements of its tables and returns a bound for each task.", "quantifier": "every task set, every set of nested critical sections, every solver that solves feasible programs", "why_tests_cant": "an access out of range is undefined behaviour that a test may not notice; the tests nest resources in ascending order only", "anchors": ["native/src/blocking/linprog/lp_spinlock_nested_fifo.cpp:lp_nested_fifo_spinlock_bounds", "native/include/nested_cs.h:CriticalSectionsOfTask", "schedcat/locking/bounds.py:apply_pfp_nested_fifo_spinlock_bounds"]}
{"id": "C142", "title": "Without sharing between processors, the analysis of nested FIFO spin locks yields the bound of the stack resource policy", "statement": "If no critical section is nested and no resource is used on two processors, the blocking bound that apply_pfp_nested_fifo_spinlock_bounds computes for a task is the length of a longest critical section of a task with less priority on the same processor, for a resource that is also used by a task with at least the same priority as the task under analysis, or zero if there is none.", "quantifier": "every task set without nesting and without resources that are shared between processors, every optimal solution of the integer linear programs", "why_tests_cant": "the optimum of the program must be known for every task set; a test sees the bounds of a few task sets, and a safety theorem says nothing about bounds that are too large", "anchors": ["native/src/blocking/linprog/lp_spinlock_nested_fifo.cpp:lp_nested_fifo_spinlock_bounds", "schedcat/locking/bounds.py:apply_pfp_nested_fifo_spinlock_bounds"]}
{"id": "C143", "title": "The example study assigns the priority points of G-FL", "statement": "Before it computes blocking bounds, the example study gives each task the priority point that global fair lateness (G-FL) uses: the deadline minus the share (m - 1) / m of the cost, where m is the number of processors of the cluster. Preemption levels are derived from these points.", "quantifier": "every deadline, cost and number of processors", "why_tests_cant": "the study returns response times either way; that the preemption levels belong to another scheduler is not visible in any result", "anchors": ["example/locking.py:preprocess_ts", "schedcat/locking/bounds.py:assign_prio_pt_preemption_levels"]}
{"id": "C144", "title": "The example study finds response times whenever iterating its analysis converges", "statement": "bound_cfl_with_locks returns only response times that do not exceed those assumed in the blocking analysis, and if repeated analysis, each time with the response times of the previous round, confirms its assumptions within 100 rounds, it returns response times.", "quantifier": "every task set, every result of the blocking and response-time analyses", "why_tests_cant": "a test with a task set that needs more than one round would have to know that the iteration converges", "anchors": ["example/locking.py:bound_cfl_with_locks", "example/locking.py:copy_ts"]}
{"id": "C145", "title": "The example study partitions the tasks within the capacity of the clusters", "statement": "partition_tasks returns nonempty clusters that contain each task exactly once, with the index of the cluster as partition; the utilization of each cluster is no more than its number of processors, which is one less for the first cluster if a processor is dedicated to interrupts. It finds a partition if, for each task, the total capacity is at least the total utilization plus the utilization of this task once for each cluster but one.", "quantifier": "every list of tasks, every size and number of clusters, with and without a dedicated processor", "why_tests_cant": "worst-fit may fail or overload a cluster on some list of utilizations only", "anchors": ["example/mapping.py:partition_tasks", "schedcat/mapping/rollback.py:WorstFit"]}
{"id": "C146", "title": "The analyses with restricted segment boosting are defined for every number of processors", "statement": "For every number of processors, the LP-based analyses of the global FMLP+ and of P-RSB formulate linear programs with finite coefficients, and compute a blocking bound for each task.", "quantifier": "every task set whose tasks are ordered by priority and whose costs do not exceed response times, every number of processors", "why_tests_cant": "an infinite coefficient does not raise an error when the program is formulated; what the solver makes of it depends on the solver", "anchors": ["native/src/blocking/linprog/lp_global_rsb.cpp:add_rsb_total_co_boosting_stalling_interference", "native/src/blocking/linprog/lp_global_rsb.cpp:add_rsb_total_co_boosting_interference", "native/src/blocking/linprog/lp_global_fmlpp.cpp:lp_global_fmlpp_bounds", "native/src/blocking/linprog/lp_prsb.cpp:lp_prsb_bounds", "schedcat/locking/bounds.py:apply_global_fmlpp_bounds", "schedcat/locking/bounds.py:apply_prsb_bounds"]}
{"id": "C147", "title": "The analyses with restricted segment boosting are safe", "statement": "If the response times assumed in the LP-based analysis of the global FMLP+ (or P-RSB) are confirmed, that is, the cost of each task and its bound are together no more than its assumed response time, then every job completes within it, in every run under global fixed-priority scheduling with restricted segment boosting and FIFO queues (priority queues).", "quantifier": "every task set, number of processors, optimal solution of the linear programs, run of the system and job", "why_tests_cant": "an unsafe bound is exceeded only in particular schedules of particular task sets", "anchors": ["native/src/blocking/linprog/lp_global_rsb.cpp", "native/src/blocking/linprog/lp_global_fmlpp.cpp:lp_global_fmlpp_bounds", "native/src/blocking/linprog/lp_prsb.cpp:lp_prsb_bounds", "schedcat/locking/bounds.py:apply_global_fmlpp_bounds", "schedcat/locking/bounds.py:apply_prsb_bounds"]}
{"id": "C148", "title": "Linear programs are handed over to the solver as they were formulated", "statement": "Whichever solver the library is built with (GLPK or CPLEX), the problem that the solver receives has the same feasible assignments and the same objective as the linear program formulated by the analysis: expressions are sums of their terms, binary variables are 0 or 1, integer variables are non-negative unless a range is declared, and other variables are between 0 and 1 unless a range is declared.", "quantifier": "every linear program whose variables are numbered from 0, with at most one declared range for each variable; every assignment of values", "why_tests_cant": "tests run with one solver only and on few small programs; a program that is handed over incorrectly has an optimum, too", "anchors": ["native/src/linprog/glpk.cpp:GLPKSolution", "native/src/linprog/cpx.cpp:CPXSolution", "native/include/linprog/model.h:LinearProgram", "native/include/linprog/solver.h:linprog_solve"]}
{"id": "C149", "title": "Bounds for preemptive FIFO spin locks respect the strength of the protocol", "statement": "The spin-delay bound of a task for preemptive FIFO spin locks is never larger than the bound for spin locks without any order of the requests; and for a task that no other task of its processor can preempt, it is never larger than the bound for non-preemptive FIFO spin locks; and for a task with the lowest priority on its processor, it is never smaller than the bound for non-preemptive FIFO spin locks.", "quantifier": "every task set with any requests, priorities, processors and assumed response times; every pair of solvers that return optimal solutions", "why_tests_cant": "the bounds are optima of different mixed-integer programs with different variables; a test compares them for a few task sets only", "anchors": ["schedcat/locking/bounds.py:apply_pfp_lp_preemptive_fifo_bounds", "native/src/blocking/linprog/lp_spinlock_msrp.cpp:lp_pfp_preemptive_fifo_spinlock_bounds", "native/src/blocking/linprog/lp_spinlocks.cpp:lp_pfp_baseline_spinlock_bounds"]}
{"id": "C150", "title": "Bounds for preemptive FIFO spin locks do not depend on the linear solver", "statement": "For a given task set, the spin-delay bounds for preemptive FIFO spin locks are the same whether the library is built with GLPK or with CPLEX.", "quantifier": "every task set", "why_tests_cant": "a build has one solver only; the results of each build look plausible", "anchors": ["native/src/blocking/linprog/lp_spinlock_msrp.cpp:add_preemptive_fifo_max_preempt_constraints", "native/src/linprog/cpx.cpp:CPXSolution", "native/src/linprog/glpk.cpp:GLPKSolution"]}
{"id": "C151", "title": "Bounds for preemptive priority-ordered spin locks respect the strength of the protocol", "statement": "The spin-delay bound of a task for preemptive priority-ordered spin locks is never larger than the bound for spin locks without any order of the requests; and for a task that is alone on its processor, so that it is never preempted, it is never larger than the bound for non-preemptive priority-ordered spin locks.", "quantifier": "every task set with any requests, locking priorities, processors and assumed response times; every pair of solvers that return optimal solutions", "why_tests_cant": "the bounds are optima of different mixed-integer programs with different variables and different fixed-point iterations; a test compares them for a few task sets only", "anchors": ["schedcat/locking/bounds.py:apply_pfp_lp_preemptive_prio_bounds", "native/src/blocking/linprog/lp_spinlock_prio.cpp:lp_pfp_prio_spinlock_bounds", "native/src/blocking/linprog/lp_spinlocks.cpp:lp_pfp_baseline_spinlock_bounds"]}
{"id": "C152", "title": "Bounds for preemptive priority-ordered spin locks are safe", "statement": "If the response-time analysis accepts a task set with the spin-delay bounds for preemptive priority-ordered spin locks, no job misses its deadline in any run under partitioned fixed-priority scheduling with such locks, where a request is cancelled when the spinning job is preempted and issued anew when it executes again.", "quantifier": "every task set with any requests, locking priorities and processors; every schedule of any length; every solver that returns optimal solutions", "why_tests_cant": "a violation needs a schedule in which a spinning job is preempted several times just before the resource is released; tests compare numbers with numbers and do not generate schedules", "anchors": ["native/src/blocking/linprog/lp_spinlock_prio.cpp:lp_pfp_prio_spinlock_bounds", "native/src/blocking/linprog/lp_spinlock_prio.cpp:add_prio_blocking_LP_constraints"]}
{"id": "C153", "title": "Bounds for preemptive spin locks without order respect the strength of the protocol", "statement": "The spin-delay bound of a task for preemptive spin locks without any order of the requests is never larger than the bound for spin locks of which nothing is known; and for a task that is alone on its processor, so that it is never preempted, it is never larger than the bound for non-preemptive spin locks without order.", "quantifier": "every task set with any requests, processors and assumed response times; every pair of solvers that return optimal solutions", "why_tests_cant": "the bounds are optima of different mixed-integer programs whose coefficients stem from different fixed-point iterations; a test compares them for a few task sets only", "anchors": ["schedcat/locking/bounds.py:apply_pfp_lp_preemptive_unordered_bounds", "native/src/blocking/linprog/lp_spinlock_unordered.cpp:lp_pfp_unordered_spinlock_bounds", "native/src/blocking/linprog/lp_spinlocks.cpp:lp_pfp_baseline_spinlock_bounds"]}
{"id": "C154", "title": "Without distinct locking priorities, preemptive priority-ordered locks with FIFO tie-breaking are bounded like FIFO locks", "statement": "If all requests have the same locking priority, the spin-delay bound of every task for preemptive spin locks that serve requests in the order of locking priorities, with ties in FIFO order, is that for preemptive FIFO spin locks.", "quantifier": "every task set with any requests, processors and assumed response times; every pair of solvers that return optimal solutions", "why_tests_cant": "the two bounds are optima of different mixed-integer programs built by different files; a test compares them for a few task sets only", "anchors": ["schedcat/locking/bounds.py:apply_pfp_lp_preemptive_prio_fifo_bounds", "native/src/blocking/linprog/lp_spinlock_prio_fifo.cpp:lp_pfp_prio_fifo_spinlock_bounds", "native/src/blocking/linprog/lp_spinlock_msrp.cpp:lp_pfp_preemptive_fifo_spinlock_bounds"]}
{"id": "C155", "title": "Bounds for preemptive priority-ordered spin locks with FIFO tie-breaking are safe", "statement": "If the response-time analysis accepts a task set with the spin-delay bounds for preemptive spin locks that serve requests in the order of locking priorities, with ties in FIFO order, no job misses its deadline in any run under partitioned fixed-priority scheduling with such locks.", "quantifier": "every task set with any requests, locking priorities and processors; every schedule of any length; every solver that returns optimal solutions", "why_tests_cant": "a violation needs a schedule in which a request of low locking priority is overtaken; tests compare numbers with numbers and do not generate schedules", "anchors": ["schedcat/locking/bounds.py:apply_pfp_lp_preemptive_prio_fifo_bounds", "native/include/sharedres_types.h:add_request", "native/src/blocking/linprog/lp_spinlock_prio_fifo.cpp:lp_pfp_prio_fifo_spinlock_bounds"]}
{"id": "C156", "title": "Conversions of time units are safe", "statement": "Rounding up milliseconds yields the least whole number of microseconds that is not shorter, rounding down the greatest that is not longer; sums of rounded times are on the safe side; converting to the other unit and back changes nothing.", "quantifier": "every time; every list of times", "why_tests_cant": "rounding errors appear only for times with fractions of microseconds, of which tests try a few", "anchors": ["schedcat/util/time.py:us2ms", "schedcat/util/time.py:ms2us", "schedcat/util/time.py:sec2us", "schedcat/util/time.py:ms2us_ru", "schedcat/util/time.py:ms2us_rd"]}
{"id": "C157", "title": "Attributes and items of a storage object agree", "statement": "After any history of assignments and deletions, of attributes or of items, reading an attribute or an item of a storage object yields the value stored last under this name, and an AttributeError or KeyError if there is none.", "quantifier": "every history of operations of any length; every name and value", "why_tests_cant": "the set of histories and names is infinite; a failing name is one that happens to be an attribute of the class", "anchors": ["schedcat/util/storage.py:Storage"]}
