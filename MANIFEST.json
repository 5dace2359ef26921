{
 "claims": [
  {
   "property": "C01",
   "status": "proved",
   "theorems": [
    "Verif.C01_dbf_upper",
    "Verif.C01_dbf_attained",
    "Verif.C01_system_dbf_upper",
    "Verif.C01_system_dbf_attained"
   ],
   "note": ""
  },
  {
   "property": "C02",
   "status": "proved",
   "theorems": [
    "Verif.C02_rbf_upper",
    "Verif.C02_rbf_attained",
    "Verif.C02_system_rbf_upper",
    "Verif.C02_system_rbf_attained"
   ],
   "note": ""
  },
  {
   "property": "C03",
   "status": "proved",
   "theorems": [
    "Verif.C03_dbf_points_task",
    "Verif.C03_rbf_points_task",
    "Verif.C03_dbf_points_system",
    "Verif.C03_rbf_points_system",
    "Verif.C03_points_strictly_increasing",
    "Verif.C03_points_sufficient"
   ],
   "note": "calls with max_t given; max_t=None yields an infinite iterator and is not modelled"
  },
  {
   "property": "C04",
   "status": "proved",
   "theorems": [
    "Verif.C04_maxjobs_upper",
    "Verif.C04_maxjobs_attained"
   ],
   "note": ""
  },
  {
   "property": "C05",
   "status": "proved",
   "theorems": [
    "Verif.C05_hyperperiod_is_lcm",
    "Verif.C05_hyperperiod_perm",
    "Verif.C05_dbf_periodic"
   ],
   "note": ""
  },
  {
   "property": "C06",
   "status": "proved",
   "theorems": [
    "Verif.C06_topsum_upper",
    "Verif.C06_topsum_attained",
    "Verif.C06_topsum_upper_nonneg",
    "Verif.C06_topsum_perm",
    "Verif.C06_heaviest_utilization"
   ],
   "note": ""
  },
  {
   "property": "C07",
   "status": "proved",
   "theorems": [
    "Verif.C07_sorting",
    "Verif.C07_assign_ids",
    "Verif.C07_assign_ids_by",
    "Verif.C07_priority_partition"
   ],
   "note": ""
  },
  {
   "property": "C08",
   "status": "proved",
   "theorems": [
    "Verif.Native.C08_qpa_terminates",
    "Verif.Native.C08_qpa_exact"
   ],
   "note": "Termination and exactness of QPATest::is_schedulable, for every task set; unsigned long overflow is not modelled."
  },
  {
   "property": "C09",
   "status": "proved",
   "theorems": [
    "Verif.Native.C09_edf_sound",
    "Verif.Native.C09_edf_complete"
   ],
   "note": "Soundness over every EDF schedule of every legal arrival sequence in discrete time; completeness exhibits an arrival sequence no schedule can serve."
  },
  {
   "property": "C10",
   "status": "proved",
   "theorems": [
    "Verif.Native.C10_c_equal_d_max"
   ],
   "note": "Termination, schedulability of the result and maximality, in terms of EDF schedules."
  },
  {
   "property": "C11",
   "status": "proved",
   "theorems": [
    "Verif.Fp.C11_no_deadline_miss"
   ],
   "note": "natural-number task parameters, discrete time; covers blocking terms"
  },
  {
   "property": "C12",
   "status": "proved",
   "theorems": [
    "Verif.Fp.C12_terminates",
    "Verif.Fp.C12_least_fixpoint",
    "Verif.Fp.C12_analysis_terminates"
   ],
   "note": "exact arithmetic in place of floats"
  },
  {
   "property": "C13",
   "status": "partial",
   "theorems": [
    "Verif.Fp.C13_violated",
    "Verif.Fp.C13_within_deadline_partial"
   ],
   "note": "violated by tasks with release jitter: negation proved with a witness and a legal behaviour that misses the deadline; holds for every task without own jitter"
  },
  {
   "property": "C14",
   "status": "proved",
   "theorems": [
    "Verif.Fp.C14_response_times_safe"
   ],
   "note": "natural-number task parameters, discrete time; dynamic self-suspensions, jitter, priority inversion; holds even without the proviso on deadlines"
  },
  {
   "property": "C15",
   "status": "proved",
   "theorems": [
    "Verif.GEdf.C15_gfb_safe"
   ],
   "note": "natural-number task parameters, discrete time"
  },
  {
   "property": "C16",
   "status": "proved",
   "theorems": [
    "Verif.GEdf.C16_bcl_safe"
   ],
   "note": ""
  },
  {
   "property": "C17",
   "status": "partial",
   "theorems": [
    "Verif.GEdf.C17_violated",
    "Verif.GEdf.C17_infeasible_misses",
    "Verif.GEdf.C53_accepts_feasible"
   ],
   "note": "violated by BCL, BCLI, BAR, RTA and is_schedulable_py: negations proved with concrete witnesses; holds for GFB and BAK (C53)"
  },
  {
   "property": "C18",
   "status": "partial",
   "theorems": [
    "Verif.GEdf.C18_violated",
    "Verif.GEdf.C18_no_overload_partial",
    "Verif.GEdf.C53_no_overload"
   ],
   "note": "violated by BAK (arbitrary deadlines) and BCL (infeasible tasks): negations proved; holds for feasible constrained-deadline tasks for every test, and always for GFB, BAR and is_schedulable_py"
  },
  {
   "property": "C19",
   "status": "partial",
   "theorems": [
    "Verif.GEdf.C19_rta_terminates_partial",
    "Verif.GEdf.C19_rta_fixpoint",
    "Verif.GEdf.C19_bcli_slack_monotone",
    "Verif.GEdf.C19_bcli_terminates",
    "Verif.GEdf.C19_rta_diverges"
   ],
   "note": "the RTA search diverges on some sets with infeasible tasks (negation proved); it terminates on feasible sets with a round limit or a minimum step of at most one (missing: no round limit and a larger step); BCLI always terminates"
  },
  {
   "property": "C20",
   "status": "proved",
   "theorems": [
    "Verif.GEdf.C20_rta_safe",
    "Verif.GEdf.C20_response_times_safe"
   ],
   "note": ""
  },
  {
   "property": "C21",
   "status": "partial",
   "theorems": [
    "Verif.Binpack.C21_within_capacity",
    "Verif.Binpack.C21_next_fit",
    "Verif.Binpack.C21_any_fit",
    "Verif.Binpack.C21_next_any_fit_total",
    "Verif.Binpack.C21_best_fit_on_demand_violated",
    "Verif.Binpack.C24_best_fit_on_demand"
   ],
   "note": "on-demand best_fit overfills a bin with an oversized item (negation proved); holds when every weight is at most the capacity"
  },
  {
   "property": "C22",
   "status": "partial",
   "theorems": [
    "Verif.Binpack.C22_conserves",
    "Verif.Binpack.C22_next_fit_violated",
    "Verif.Binpack.C22_next_fit_partial",
    "Verif.Binpack.C22_any_fit_violated",
    "Verif.Binpack.C22_any_fit_partial"
   ],
   "note": "next_fit and any_fit violate the property: negations proved with concrete witnesses, and what remains true is proved"
  },
  {
   "property": "C23",
   "status": "proved",
   "theorems": [
    "Verif.Binpack.C23_first_fit",
    "Verif.Binpack.C23_worst_fit",
    "Verif.Binpack.C23_almost_worst_fit",
    "Verif.Binpack.C23_best_fit"
   ],
   "note": ""
  },
  {
   "property": "C24",
   "status": "proved",
   "theorems": [
    "Verif.Binpack.C24_best_fit_on_demand",
    "Verif.Binpack.C24_two_approximation"
   ],
   "note": ""
  },
  {
   "property": "C25",
   "status": "proved",
   "theorems": [
    "Verif.Binpack.C25_decreasing",
    "Verif.Binpack.C25_decreasing_variants"
   ],
   "note": ""
  },
  {
   "property": "C26",
   "status": "proved",
   "theorems": [
    "Verif.Rollback.C26_basic_bin",
    "Verif.Rollback.C26_bin",
    "Verif.Rollback.C26_global_constraint_bin",
    "Verif.Rollback.C26_ductile_bin",
    "Verif.Rollback.C26_sequence",
    "Verif.Rollback.C26_no_commit_rollback",
    "Verif.Rollback.C26_checked_bin",
    "Verif.Rollback.C26_checked_bin_detects"
   ],
   "note": ""
  },
  {
   "property": "C27",
   "status": "partial",
   "theorems": [
    "Verif.Rollback.C27_conserves",
    "Verif.Rollback.C27_conserves_history",
    "Verif.Rollback.C27_capacity",
    "Verif.Rollback.C27_misfit_iff",
    "Verif.Rollback.C27_ductile_best_fit_violated"
   ],
   "note": "proved for bins with items of fixed size; with ductile items BestFit violates the capacity part (negation proved)"
  },
  {
   "property": "C28",
   "status": "proved",
   "theorems": [
    "Verif.Rollback.C28_max_spare_eq_worst_fit",
    "Verif.Rollback.C28_min_spare_eq_best_fit"
   ],
   "note": ""
  },
  {
   "property": "C29",
   "status": "partial",
   "theorems": [
    "Verif.Oh.C29_wcet",
    "Verif.Oh.C29_violated",
    "Verif.Oh.C29_period_partial"
   ],
   "note": "quantize_wcet proved; quantize_period violates it for integral periods that properly divide the quantum (negation proved), the rest proved"
  },
  {
   "property": "C30",
   "status": "partial",
   "theorems": [
    "Verif.Oh.C30_account_for_staggering",
    "Verif.Oh.C30_violated",
    "Verif.Oh.C30_too_small",
    "Verif.Oh.C30_unstaggered_partial"
   ],
   "note": "violated in PFair accounting (swapped arguments): negation proved, and the charge is too small for all m >= 2 and quanta longer than m; account_for_staggering and unstaggered accounting proved"
  },
  {
   "property": "C31",
   "status": "partial",
   "theorems": [
    "Verif.Oh.C31_initial_load",
    "Verif.Oh.C31_jlfp",
    "Verif.Oh.C31_jlfp_quantize",
    "Verif.Oh.C31_fp",
    "Verif.Oh.C31_fp_total",
    "Verif.Oh.C31_fp_quantize",
    "Verif.Oh.C31_spinlock",
    "Verif.Oh.C31_semaphore",
    "Verif.Oh.C31_dpcp",
    "Verif.Oh.C31_jlfp_monotone_partial",
    "Verif.Oh.C31_monotone_violated"
   ],
   "note": "all but the last clause proved; monotonicity of the JLFP verdict is violated by latencies beyond a period (negation proved) and proved otherwise"
  },
  {
   "property": "C32",
   "status": "proved",
   "theorems": [
    "Verif.Oh.C32_monotone_envelope",
    "Verif.Oh.C32_negative_constant"
   ],
   "note": ""
  },
  {
   "property": "C33",
   "status": "partial",
   "theorems": [
    "Verif.Ser.C33_task_partial",
    "Verif.Ser.C33_taskset_partial",
    "Verif.Ser.C33_testpoint_partial",
    "Verif.Ser.C33_violated"
   ],
   "note": "exact round trip of tasks, task sets and test points for integers of at most 53 bits and non-numeric texts; violated (negations proved): response times, request priorities, empty affinities, large integers, near-integers and numeric texts are not preserved"
  },
  {
   "property": "C34",
   "status": "partial",
   "theorems": [
    "Verif.LinProg.C34_evaluate",
    "Verif.LinProg.C34_prefix",
    "Verif.LinProg.C34_merge",
    "Verif.LinProg.C34_merge_succeeds",
    "Verif.LinProg.C34_kill_safe",
    "Verif.LinProg.C34_kill_violated",
    "Verif.LinProg.C34_kill_exact_partial"
   ],
   "note": "prefixing, merging and evaluation proved in full; kill_non_positive_vars keeps all solutions and objective values, adds none if the program has a solution; violated (negation proved) for programs without solution, whose equations may be dropped"
  },
  {
   "property": "C35",
   "status": "proved",
   "theorems": [
    "Verif.Res.C35_groups",
    "Verif.Res.C35_model"
   ],
   "note": ""
  },
  {
   "property": "C36",
   "status": "partial",
   "theorems": [
    "Verif.Res.C36_flat",
    "Verif.Res.C36_total_length",
    "Verif.Res.C36_well_ordered",
    "Verif.Res.C36_ordered_no_reentry",
    "Verif.Res.C36_built_no_reentry",
    "Verif.Res.C36_subtree_violated"
   ],
   "note": "adding a section that already has nested sections is not checked for re-entrance (negation proved); everything else proved, re-entrance for trees built section by section"
  },
  {
   "property": "C37",
   "status": "partial",
   "theorems": [
    "Verif.Part.C37_connected_partial",
    "Verif.Part.C37_single_partial",
    "Verif.Part.C37_violated"
   ],
   "note": "violated: shared set objects merge stale components for every iteration order (negation proved); members of a subset are always connected, and the split is right when each task uses at most one resource"
  },
  {
   "property": "C38",
   "status": "partial",
   "theorems": [
    "Verif.Lock.C38_levels_partial",
    "Verif.Lock.C38_levels_integral",
    "Verif.Lock.C38_violated",
    "Verif.Lock.C38_fp",
    "Verif.Lock.C38_reasonable"
   ],
   "note": "violated for fractional deadlines (int() merges them): negation proved; holds for integral deadlines, and the order is never inverted"
  },
  {
   "property": "C39",
   "status": "proved",
   "theorems": [
    "Verif.SR.C39_bound_blocking",
    "Verif.SR.C39_bound_blocking_cluster",
    "Verif.SR.C39_sorted"
   ],
   "note": ""
  },
  {
   "property": "C40",
   "status": "proved",
   "theorems": [
    "Verif.SR.C40_remote",
    "Verif.SR.C40_total",
    "Verif.SR.C40_arrival",
    "Verif.SR.C40_jobs"
   ],
   "note": ""
  },
  {
   "property": "C41",
   "status": "partial",
   "theorems": [
    "Verif.Lock.C41_round_robin_partial",
    "Verif.Lock.C41_index_order",
    "Verif.Lock.C41_violated"
   ],
   "note": "violated on one CPU when that CPU is the dedicated one (negation proved); proved for at least two CPUs"
  },
  {
   "property": "C42",
   "status": "proved",
   "theorems": [
    "Verif.Run.C42_ensure_integer_rate",
    "Verif.Run.C42_reduction",
    "Verif.Run.C42_terminates",
    "Verif.Run.C42_integral",
    "Verif.Run.C42_instant",
    "Verif.Run.C42_max_preemptions"
   ],
   "note": "Rates are exact rationals: the code packs with float sums (best_fit starts from 0.0) and takes math.ceil of the total through a float."
  },
  {
   "property": "C43",
   "status": "partial",
   "theorems": [
    "Verif.Apa.C43_worst_fit_ends",
    "Verif.Apa.C43_worst_fit",
    "Verif.Apa.C43_first_fit_ends",
    "Verif.Apa.C43_first_fit",
    "Verif.Apa.C43_double_worst_fit",
    "Verif.Apa.C43_two_stage",
    "Verif.Apa.C43_preassign_failures",
    "Verif.Apa.C43_violated"
   ],
   "note": "proved for feasible tasks with distinct identifiers: every task is accounted for, parts add up and respect affinities, every processor is EDF-schedulable, all heuristics end; violated (negation proved) by first fit if identifiers coincide. meta_reduce_periods is not modelled; densities are exact."
  },
  {
   "property": "C44",
   "status": "partial",
   "theorems": [
    "Verif.Can.C44_wctt",
    "Verif.Can.C44_terminates",
    "Verif.Can.C44_monotone",
    "Verif.Can.C44_memo",
    "Verif.Can.C44_memo_history",
    "Verif.Can.C44_max_wcrt_violated",
    "Verif.Can.C44_max_wcrt_partial"
   ],
   "note": "everything about get_wctt and get_wctt_fast proved; the cached largest response time goes stale after add_replicas (negation proved)"
  },
  {
   "property": "C45",
   "status": "partial",
   "theorems": [
    "Verif.Can.C45_powerset",
    "Verif.Can.C45_powerset_nodup",
    "Verif.Can.C45_weights",
    "Verif.Can.C45_powerset_violated",
    "Verif.Can.C45_assignment_sound",
    "Verif.Can.C45_assignment_robust"
   ],
   "note": "powerset([]) does not end (negation proved); everything else proved, for positive fault rate and exact arithmetic, starting with cleared memos"
  },
  {
   "property": "C46",
   "status": "proved",
   "theorems": [
    "Verif.Gen.C46_limits",
    "Verif.Gen.C46_in_order",
    "Verif.Gen.C46_terminates",
    "Verif.Gen.C46_range",
    "Verif.Gen.C46_distributions"
   ],
   "note": "Draws are arbitrary; sums of utilizations are exact (the code adds floats)."
  },
  {
   "property": "C47",
   "status": "proved",
   "theorems": [
    "Verif.EdfSim.C47_misses_deadline",
    "Verif.EdfSim.C47_sound",
    "Verif.EdfSim.C47_first_violation",
    "Verif.EdfSim.C47_tardiness"
   ],
   "note": "Positive costs and at least one processor (with none the code reads past an array). The queue is any structure whose top has an earliest deadline; no overflow of unsigned long."
  },
  {
   "property": "C48",
   "status": "proved",
   "theorems": [
    "Verif.Gel.C48_unique",
    "Verif.Gel.C48_exact",
    "Verif.Gel.C48_exact_native",
    "Verif.Gel.C48_binsearch",
    "Verif.Gel.C48_binsearch_native"
   ],
   "note": "Exact arithmetic. The root is unique, the exact algorithms find it for every legal behaviour of std::sort and std::nth_element, the binary search ends and is legal and close."
  },
  {
   "property": "C49",
   "status": "partial",
   "theorems": [
    "Verif.GyRta.C49_full_utilization_violated",
    "Verif.GyRta.C49_equal_deadlines_violated",
    "Verif.GyRta.C49_ends_partial",
    "Verif.GyRta.C49_overload",
    "Verif.GyRta.C49_approx_partial",
    "Verif.GyRta.C49_exact_partial",
    "Verif.GyRta.C49_approx_schedulable_partial",
    "Verif.GyRta.C49_exact_schedulable_partial"
   ],
   "note": "violated (negations proved): never ends for utilization exactly 1; for three tasks, two of which share a deadline, a response time below the cost. Proved for utilization below 1 (termination) and distinct deadlines (safety, schedulability), default supply function."
  },
  {
   "property": "C50",
   "status": "proved",
   "theorems": [
    "Verif.C50_imerge",
    "Verif.C50_imerge_complete",
    "Verif.C50_imerge_total",
    "Verif.C50_uniq",
    "Verif.C50_uniq_imerge"
   ],
   "note": "any heap that pops a least element"
  },
  {
   "property": "C51",
   "status": "proved",
   "theorems": [
    "Verif.GFp.C51_bertogna_safe",
    "Verif.GFp.C51_bertogna_schedulable",
    "Verif.GFp.C51_bertogna_terminates",
    "Verif.GFp.C51_guan_safe",
    "Verif.GFp.C51_guan_terminates"
   ],
   "note": "Safety of both response-time tests over all discrete-time sporadic workloads and global fixed-priority schedules (Bertogna also with blocking), and termination. Integral parameters, constrained deadlines."
  },
  {
   "property": "C52",
   "status": "proved",
   "theorems": [
    "Verif.Native.C52_unsigned",
    "Verif.Native.C52_big",
    "Verif.Native.C52_approx_demand"
   ],
   "note": ""
  },
  {
   "property": "C53",
   "status": "proved",
   "theorems": [
    "Verif.GEdf.C53_accepts_feasible",
    "Verif.GEdf.C53_no_overload"
   ],
   "note": ""
  },
  {
   "property": "C54",
   "status": "proved",
   "theorems": [
    "Verif.GEdf.C54_bak_safe"
   ],
   "note": ""
  },
  {
   "property": "C55",
   "status": "partial",
   "theorems": [
    "Verif.GEdf.C55_bak_violated",
    "Verif.GEdf.C54_bak_safe"
   ],
   "note": "violated: an accepted set that no schedule can serve (negation proved); holds for constrained deadlines (C54)"
  },
  {
   "property": "C56",
   "status": "proved",
   "theorems": [
    "Verif.GEdf.C56_bar_safe"
   ],
   "note": ""
  },
  {
   "property": "C57",
   "status": "proved",
   "theorems": [
    "Verif.GEdf.C57_is_schedulable_py_safe",
    "Verif.GEdf.C57_is_schedulable_py_safe_uni",
    "Verif.GEdf.C57_is_schedulable_py_terminates"
   ],
   "note": ""
  },
  {
   "property": "C58",
   "status": "proved",
   "theorems": [
    "Verif.GEdf.C58_bcli_safe"
   ],
   "note": ""
  },
  {
   "property": "C59",
   "status": "partial",
   "theorems": [
    "Verif.Oh.C59_jlfp_violated",
    "Verif.Oh.C59_pfair_violated",
    "Verif.Oh.C59_jlfp_partial",
    "Verif.Oh.C59_pfair_partial"
   ],
   "note": "violated (negations proved): a latency above the period gives negative periods with negative density; proved for latencies below every period and deadline"
  },
  {
   "property": "C60",
   "status": "partial",
   "theorems": [
    "Verif.Oh.C60_fp_violated",
    "Verif.Oh.C31_fp_total"
   ],
   "note": "violated: the task set is passed instead of its size, any non-constant release latency raises; proved for constants"
  },
  {
   "property": "C61",
   "status": "partial",
   "theorems": [
    "Verif.Native.C61_load_safe_partial",
    "Verif.Native.C61_arbitrary_violated",
    "Verif.Native.C61_load_precise"
   ],
   "note": "violated for deadlines beyond periods (negation proved); proved for constrained deadlines"
  },
  {
   "property": "C62",
   "status": "partial",
   "theorems": [
    "Verif.Can.Broster.C62_faults_partial",
    "Verif.Can.Broster.C62_total_partial",
    "Verif.Can.Broster.C62_violated"
   ],
   "note": "violated: a query without a number of faults appends to the shared memo again, so asking twice doubles the answer (negation proved); numbered queries and a first unnumbered query are right"
  },
  {
   "property": "C63",
   "status": "partial",
   "theorems": [
    "Verif.Can.C63_violated",
    "Verif.Can.C63_safe_partial"
   ],
   "note": "violated by push-through interference of the message's own previous frame (negation proved with a concrete run); safe whenever some lower-priority message is at least as long and deadlines do not exceed periods"
  },
  {
   "property": "C64",
   "status": "proved",
   "theorems": [
    "Verif.SR.C64_fmlp"
   ],
   "note": ""
  },
  {
   "property": "C65",
   "status": "proved",
   "theorems": [
    "Verif.SR.C65_omlp"
   ],
   "note": ""
  },
  {
   "property": "C66",
   "status": "proved",
   "theorems": [
    "Verif.Res.C66_added",
    "Verif.Res.C66_convert"
   ],
   "note": ""
  },
  {
   "property": "C67",
   "status": "partial",
   "theorems": [
    "Verif.EdfSim.C67_first_miss_not_earliest",
    "Verif.EdfSim.C47_first_violation"
   ],
   "note": "violated (negation proved): the deadline of the first job that finishes late is returned, which need not be the earliest missed deadline; that it is the first late completion is proved"
  },
  {
   "property": "C68",
   "status": "partial",
   "theorems": [
    "Verif.EdfSim.C68_unfinished_job_not_reported",
    "Verif.EdfSim.C68_finished_jobs_partial"
   ],
   "note": "violated (negation proved): jobs still unfinished when the simulation stops are not examined; proved for jobs that finish in the interval"
  },
  {
   "property": "C69",
   "status": "partial",
   "theorems": [
    "Verif.EdfSim.C69_preemptive_ignored"
   ],
   "note": "violated (negation proved): the argument is not passed on"
  },
  {
   "property": "C70",
   "status": "partial",
   "theorems": [
    "Verif.Gen.C70_squeeze_violated",
    "Verif.Gen.C70_squeeze_partial"
   ],
   "note": "violated (negation proved): the cost of a squeezed task is truncated, possibly to 0, so max_util is not matched exactly; missed by less than one time unit of the last task"
  },
  {
   "property": "C71",
   "status": "proved",
   "theorems": [
    "Verif.Gen.C71_fixed_sum"
   ],
   "note": "Exact arithmetic; the table that chooses between the simplices is arbitrary."
  },
  {
   "property": "C72",
   "status": "partial",
   "theorems": [
    "Verif.Gen.C72_period_range_violated",
    "Verif.Gen.C72_period_range_partial"
   ],
   "note": "violated (negation proved): periods exceed the maximum when it is not a multiple of the granularity; proved when it is"
  },
  {
   "property": "C73",
   "status": "partial",
   "theorems": [
    "Verif.Gen.C73_integral_violated",
    "Verif.Gen.C73_integral_partial"
   ],
   "note": "violated (negation proved): rounding stops at the first task that no longer fits and the answer is ignored; proved when every rounded task fits"
  },
  {
   "property": "C74",
   "status": "partial",
   "theorems": [
    "Verif.GFp.C74_violated",
    "Verif.GFp.C74_guan_partial"
   ],
   "note": "bertogna.py accepts an overloaded set with a deadline beyond its period (witness); guan.py never accepts such sets."
  },
  {
   "property": "C75",
   "status": "partial",
   "theorems": [
    "Verif.LinProg.C75_violated",
    "Verif.LinProg.C75_merge_violated",
    "Verif.LinProg.C75_disjoint_partial"
   ],
   "note": "violated (negation proved): prefixes a and a_b clash; proved for prefixes without the separator"
  },
  {
   "property": "C76",
   "status": "partial",
   "theorems": [
    "Verif.LinProg.C76_violated",
    "Verif.LinProg.C76_text_partial"
   ],
   "note": "violated (negation proved): bounds are written with six decimals; proved for bounds with at most six decimals. Coefficients are taken to be printed exactly."
  },
  {
   "property": "C77",
   "status": "partial",
   "theorems": [
    "Verif.Ser.C77_violated",
    "Verif.Ser.C77_taskset_violated",
    "Verif.Ser.C77_taskset_partial"
   ],
   "note": "violated (negations proved): fractional request lengths and re-entrant sections cannot be loaded, task sets with fractional parameters cannot be written; proved for integral task sets"
  },
  {
   "property": "C78",
   "status": "partial",
   "theorems": [
    "Verif.Apa.C78_violated",
    "Verif.Apa.C78_worst_fit_partial"
   ],
   "note": "violated (negation proved): a task with cost 5 and deadline 3 is split and reported as assigned, the second part having a negative deadline; proved for worst fit without splits"
  },
  {
   "property": "C79",
   "status": "proved",
   "theorems": [
    "Verif.Gel.C79_response_details",
    "Verif.Gel.C79_gedf",
    "Verif.Gel.C79_gfl",
    "Verif.Gel.C79_python",
    "Verif.Gel.C79_max_lateness",
    "Verif.Spec.gel_bound"
   ],
   "note": "Discrete time, natural-number parameters."
  },
  {
   "property": "C80",
   "status": "partial",
   "theorems": [
    "Verif.Gel.C80_uniprocessor_violated",
    "Verif.Gel.C80_native_violated",
    "Verif.Gel.overload_unbounded",
    "Verif.Gel.C80_python_partial"
   ],
   "note": "violated (negations proved): one processor with implicit deadlines is not checked; the native implementation never checks. Proved for the Python implementation otherwise."
  },
  {
   "property": "C81",
   "status": "partial",
   "theorems": [
    "Verif.GyRta.C81_violated",
    "Verif.GyRta.C81_refines_partial"
   ],
   "note": "violated (negation proved): rbf counts a release at the end of the window, so a busy interval is extended by jobs that arrive when it ends; proved: the refined bound is never above the approximate one."
  },
  {
   "property": "C82",
   "status": "proved",
   "theorems": [
    "Verif.Da.C82_safe",
    "Verif.Da.C82_tardiness",
    "Verif.Da.C82_complete",
    "Verif.Spec.da_bound"
   ],
   "note": "Discrete time, natural-number parameters, exact arithmetic."
  },
  {
   "property": "C83",
   "status": "partial",
   "theorems": [
    "Verif.Da.C83_violated",
    "Verif.Da.C83_uniprocessor_violated",
    "Verif.Da.np_blocked",
    "Verif.Da.C83_unit_cost_partial"
   ],
   "note": "violated (negations proved, one and two processors): a short job can be blocked by long jobs for longer than the bound allows; proved for costs of at most one time unit."
  },
  {
   "property": "C84",
   "status": "partial",
   "theorems": [
    "Verif.Native.C84_gfb_safe",
    "Verif.Native.C84_baker_safe_partial",
    "Verif.Native.C84_bcl_safe",
    "Verif.Native.C84_bcli_safe",
    "Verif.Native.C84_rta_safe_partial",
    "Verif.Native.C84_baruah_safe",
    "Verif.Native.C84_la_safe_partial",
    "Verif.Native.C84_load_safe_partial",
    "Verif.Native.C84_gedf_safe_partial",
    "Verif.Native.C84_edf_safe_partial"
   ],
   "note": "Discrete time, natural-number parameters, exact fractions; deadlines below 2^64 for the tests that compute with unsigned long. For the combined test with the FF-DBF option see C88."
  },
  {
   "property": "C85",
   "status": "partial",
   "theorems": [
    "Verif.Native.C85_violated",
    "Verif.Native.backlog_misses",
    "Verif.Native.carry_misses",
    "Verif.Native.density_misses"
   ],
   "note": "violated (negation proved for all four tests, with concrete global-EDF schedules); C84 proves the case of constrained deadlines."
  },
  {
   "property": "C86",
   "status": "partial",
   "theorems": [
    "Verif.Native.C86_violated",
    "Verif.Native.C86_same_verdict",
    "Verif.Native.C86_same_verdict_iterative"
   ],
   "note": "violated (negation proved): the Python tests do not check the feasibility of each task. Proved for feasible tasks with constrained deadlines and no overload; for the iterative tests whenever the native one ends."
  },
  {
   "property": "C87",
   "status": "partial",
   "theorems": [
    "Verif.Native.C87_violated",
    "Verif.Native.C87_rejected_partial"
   ],
   "note": "violated (negation proved): RTAGedf checks one condition twice instead of self-suspensions and accepts two suspending tasks that miss a deadline; proved for the other six tests."
  },
  {
   "property": "C88",
   "status": "partial",
   "theorems": [
    "Verif.Ff.C88_ffdbf_safe",
    "Verif.Ff.C88_ffdbf_terminates",
    "Verif.Ff.C88_zero_costs",
    "Verif.Ff.C88_native_safe",
    "Verif.Ff.C88_native_terminates",
    "Verif.Ff.C88_native_empty",
    "Verif.Ff.C88_combined_safe",
    "Verif.Ff.C88_combined_terminates",
    "Verif.Ff.C88_gedf_safe_partial",
    "Verif.Ff.C88_edf_safe_partial"
   ],
   "note": "safety proved for all parameters of the search; termination proved except where it is violated (negations proved): the Python version divides by zero if all costs are zero, and the native version reads an empty queue on an empty set (the combined tests avoid both)."
  },
  {
   "property": "C89",
   "status": "partial",
   "theorems": [
    "Verif.GEdf.C89_violated",
    "Verif.GEdf.C89_assertion",
    "Verif.GEdf.C89_safe_partial",
    "Verif.GEdf.C89_native_safe_partial",
    "Verif.GEdf.C89_implicit_complete"
   ],
   "note": "violated (negations proved): for deadlines above the periods a stored response time is exceeded; a rejected set without implicit deadlines raises an exception. Proved: safety for constrained deadlines, safety, completeness and termination for implicit deadlines."
  },
  {
   "property": "C90",
   "status": "proved",
   "theorems": [
    "Verif.SR.Msrp.C90_msrp_safe",
    "Verif.SR.Msrp.C90_msrp_exact",
    "Verif.SR.Msrp.C90_msrp_terminates",
    "Verif.SR.Msrp.C90_msrp_processors_needed"
   ],
   "note": "Discrete time, natural-number parameters, exact utilizations. The levels assigned by assign_edf_preemption_levels satisfy the hypothesis (C38). Requests are not nested. A witness shows that processor numbers must be below num_cpus."
  },
  {
   "property": "C91",
   "status": "proved",
   "theorems": [
    "Verif.SR.Msrp.C91_pfp_msrp_safe"
   ],
   "note": "Discrete time, natural-number parameters. Priorities on each processor decrease in the order of the tasks (assign_fp_preemption_levels) and processors are numbered below num_cpus. Requests are not nested."
  },
  {
   "property": "C92",
   "status": "proved",
   "theorems": [
    "Verif.SR.Pip.C92_pip_safe",
    "Verif.SR.Pip.C92_pip_schedulable"
   ],
   "note": "Discrete time, natural-number parameters, constrained deadlines, priorities in the order of the tasks, at most one entry per task and resource, requests not nested and part of the cost. The response times assumed by the blocking bounds must not be below the computed ones (deadlines are always enough)."
  },
  {
   "property": "C93",
   "status": "partial",
   "theorems": [
    "Verif.SR.Pip.C93_violated",
    "Verif.SR.Pip.C93_indirect_blocking_ignored",
    "Verif.SR.Pip.C93_unreasonable_partial",
    "Verif.SR.Pip.C93_few_sharing_partial",
    "Verif.SR.Pip.C93_few_tasks_partial"
   ],
   "note": "violated (negation proved): for reasonable priority assignments the loops of Ilp_i_ppcp look up tasks in a set that is always empty, so indirect blocking is taken to be zero; tasks are accepted that miss a deadline in a run that is legal under the protocol. Proved for other assignments if the limits of the protocol have no effect (in the run, or because too few tasks share resources), and for all assignments with at most m + 1 tasks."
  },
  {
   "property": "C94",
   "status": "proved",
   "theorems": [
    "Verif.SR.Rw.C94_phase_fair_safe",
    "Verif.SR.Rw.C94_arrival",
    "Verif.SR.Rw.C94_python_safe",
    "Verif.SR.Rw.C94_python_arrival",
    "Verif.SR.Rw.C94_lengths_violated"
   ],
   "note": "Discrete time, natural-number parameters, response times of the model respected, requests not nested. Arrival blocking needs all reads (and all writes) of a task for a resource to have one length, which get_cpp_model_rw ensures; a witness shows that the native interface needs it because merge_rw_requests keeps the last length only."
  },
  {
   "property": "C95",
   "status": "proved",
   "theorems": [
    "Verif.SR.Rw.C95_task_fair_safe",
    "Verif.SR.Rw.C95_arrival"
   ],
   "note": "Discrete time, natural-number parameters, response times of the model respected, requests not nested; at most one requirement per task and resource (resmodel is a dictionary)."
  },
  {
   "property": "C96",
   "status": "partial",
   "theorems": [
    "Verif.SR.Rw.C96_violated",
    "Verif.SR.Rw.C96_one_processor_partial"
   ],
   "note": "violated (negation proved): the mutex baseline excludes the analysed task by a pointer into the other model, so its own requests count as blocking. Proved for one processor per cluster. The bounds are safe (C95)."
  },
  {
   "property": "C97",
   "status": "proved",
   "theorems": [
    "Verif.SR.Fmlp.C97_pfp_fmlp_safe",
    "Verif.SR.Fmlp.C97_pfp_fmlp_schedulable"
   ],
   "note": "Discrete time, natural-number parameters. Priorities on each processor decrease in the order of the tasks (assign_fp_preemption_levels); fewer than 2^32-1 requests per job (the native code uses UINT_MAX as 'unlimited'). The response times assumed by the blocking bounds must not be below the computed ones (deadlines are always enough). Requests are not nested. The non-preemptive variant is not covered."
  },
  {
   "property": "C98",
   "status": "proved",
   "theorems": [
    "Verif.SR.Mpcp.C98_mpcp_safe",
    "Verif.SR.Mpcp.C98_mpcp_schedulable",
    "Verif.SR.Mpcp.C98_mpcp_terminates"
   ],
   "note": "Discrete time, natural-number parameters. Priorities are globally distinct and, on each processor, decrease in the order of the tasks (as set by assign_fp_preemption_levels); one entry per resource in each task; periods and response times below 2^32-1 (the native code uses UINT_MAX as 'unlimited'). Requests are not nested; every section is treated as global, as in the code. No assumption on the response times stored before the analysis. Virtual spinning is only covered for termination."
  },
  {
   "property": "C99",
   "status": "partial",
   "theorems": [
    "Verif.SR.Dpcp.C99_violated",
    "Verif.SR.Dpcp.C99_dpcp_safe_partial",
    "Verif.SR.Dpcp.C99_dpcp_schedulable_partial"
   ],
   "note": "violated (negation proved): requests for resources that are not in the mapping are taken to cause no delay, although the code says that a dedicated processor serves them. Proved if every used resource is assigned to a processor. Discrete time, natural-number parameters; priorities are globally distinct and, on each processor, decrease in the order of the tasks; the execution of agents is part of the cost of a task; requests are not nested. Unless use_text_book_definition is set, the response times assumed by the blocking bounds must not be below the computed ones (deadlines are always enough)."
  },
  {
   "property": "C100",
   "status": "proved",
   "theorems": [
    "Verif.SR.Msrp.C100_msrp_holistic_safe",
    "Verif.SR.Msrp.C100_msrp_holistic_schedulable"
   ],
   "note": "Discrete time, natural-number parameters. Priorities on each processor decrease in the order of the tasks; no task runs on the processor given as dedicated_irq; requests are not nested; a job that had to spin for a resource uses it for some time. The response times assumed by the blocking bounds must not be below the computed ones (deadlines are always enough)."
  },
  {
   "property": "C101",
   "status": "partial",
   "theorems": [
    "Verif.SR.Lp.C101_variables_clash",
    "Verif.SR.Lp.C101_variables_partial"
   ],
   "note": "violated (negation proved): requests may have numbers up to 2^22, but the key has only 20 bits for them, so that request 2^20 of task 0 shares a variable with request 0 of task 1. Proved if no task issues more than 2^20 requests, for every sequence of lookups and every start number."
  },
  {
   "property": "C102",
   "status": "proved",
   "theorems": [
    "Verif.SR.Lp.C102_lp_msrp_safe",
    "Verif.SR.Lp.C102_lp_msrp_schedulable"
   ],
   "note": "Discrete time, natural-number parameters; the solver is any function that returns optimal solutions of the mixed-integer program, with exact arithmetic, and each combination of kind, task, request and resource has its own variable (see C101). Priorities on each processor decrease in the order of the tasks; at most one request entry per resource in each task; requests are not nested; a job that had to spin for a resource uses it for some time. The response times assumed by the blocking bounds must not be below the computed ones (deadlines are always enough)."
  },
  {
   "property": "C103",
   "status": "proved",
   "theorems": [
    "Verif.SR.Lp.C103_lp_baseline_safe",
    "Verif.SR.Lp.C103_lp_unordered_safe",
    "Verif.SR.Lp.C103_lp_baseline_schedulable",
    "Verif.SR.Lp.C103_lp_unordered_schedulable"
   ],
   "note": "As for C102, with non-preemptive spin locks that serve waiting requests in any order (which includes FIFO order). The fixed-point iteration for waiting times is modelled with fuel; the theorem holds for every result."
  },
  {
   "property": "C104",
   "status": "proved",
   "theorems": [
    "Verif.SR.Lp.C104_lp_fmlp_safe",
    "Verif.SR.Lp.C104_lp_fmlp_schedulable"
   ],
   "note": "Discrete time, natural-number parameters; the solver is any function that returns optimal solutions of the linear program, with exact arithmetic, and each combination of kind, task, request and resource has its own variable (see C101). Priorities on each processor decrease in the order of the tasks; at most one request entry per resource in each task; requests are not nested. The response times assumed by the blocking bounds must not be below the computed ones (deadlines are always enough)."
  },
  {
   "property": "C105",
   "status": "partial",
   "theorems": [
    "Verif.SR.Lp.C105_delay_violated",
    "Verif.SR.Lp.C105_arrivals_violated",
    "Verif.SR.Lp.C105_lp_mpcp_safe_partial",
    "Verif.SR.Lp.C105_lp_mpcp_schedulable_partial"
   ],
   "note": "violated (negation proved twice, for every solver that finds optimal solutions): the loop that bounds the delay of a request ends when the next value exceeds the response time but returns the last value that does not, so that it seems to have converged; and the number of sections of a local lower-priority task ignores that a job can be preempted again while it waits for a resource held by another local task. Proved if the iterations have reached fixed points and tasks of one processor do not share resources. Discrete time, natural-number parameters; any optimal solver with exact arithmetic, with a variable for each combination of kind, task, request and resource (see C101); unique priorities, in the order of the tasks on each processor; at most one request entry per resource; requests are not nested."
  },
  {
   "property": "C106",
   "status": "partial",
   "theorems": [
    "Verif.SR.Lp.C106_wait_violated",
    "Verif.SR.Lp.C106_suspension_violated",
    "Verif.SR.Lp.C106_lp_dpcp_safe_partial",
    "Verif.SR.Lp.C106_lp_dpcp_schedulable_partial"
   ],
   "note": "violated (negation proved twice, for every solver that finds optimal solutions): the loop that bounds the time of a request ends when the next value exceeds the response time but returns the last value that does not, as if it had converged; and a task whose requests on other processors are not delayed there has remote blocking 0, so that the response-time analysis does not regard it as suspending itself although its requests execute elsewhere. Proved if the iterations have fixed points below the response times and tasks with remote blocking 0 use only resources of their own processor. Discrete time, natural-number parameters; any optimal solver with exact arithmetic, with a variable for each combination of kind, task, request and resource (see C101); unique priorities, in the order of the tasks on each processor; at most one request entry per resource; requests are not nested; each resource is assigned to a processor."
  },
  {
   "property": "C107",
   "status": "partial",
   "theorems": [
    "Verif.SR.Lp.C107_suspension_violated",
    "Verif.SR.Lp.C107_lp_dflp_safe_partial",
    "Verif.SR.Lp.C107_lp_dflp_schedulable_partial"
   ],
   "note": "violated (negation proved, for every solver that finds optimal solutions): a task whose requests on other processors are not delayed there has remote blocking 0, so that the response-time analysis does not regard it as suspending itself although its requests execute elsewhere. Proved if tasks with remote blocking 0 use only resources of their own processor. Discrete time, natural-number parameters; any optimal solver with exact arithmetic (the results are truncated, not rounded, which is safe only because of this), with a variable for each combination of kind, task, request and resource (see C101); unique priorities, in the order of the tasks on each processor; at most one request entry per resource; requests are not nested; each resource is assigned to a processor."
  },
  {
   "property": "C108",
   "status": "partial",
   "theorems": [
    "Verif.SR.Lp.C108_prio_violated",
    "Verif.SR.Lp.C108_native_violated",
    "Verif.SR.Lp.C108_arrival_violated",
    "Verif.SR.Lp.C108_lp_prio_safe_partial",
    "Verif.SR.Lp.C108_lp_prio_schedulable_partial",
    "Verif.SR.Lp.C108_wait_fixed_point"
   ],
   "note": "violated (negations proved, for every solver that finds optimal solutions): the request priorities are dropped by add_request; waiting times are taken to be 0 if there is no request of lower priority; arrival blocking is bounded with the priorities of the wrong tasks (the last two also if the native code is given the priorities). Proved if no task with requests can have two jobs within the response time of a task on another processor. Discrete time, natural-number parameters; any optimal solver with exact arithmetic; unique priorities, in the order of the tasks on each processor; at most one request entry per resource; requests are not nested; a job that had to wait for a resource uses it. The preemptive variant is not modelled."
  },
  {
   "property": "C109",
   "status": "partial",
   "theorems": [
    "Verif.SR.Lp.C109_prio_fifo_violated",
    "Verif.SR.Lp.C109_native_violated",
    "Verif.SR.Lp.C109_arrival_violated",
    "Verif.SR.Lp.C109_lp_prio_fifo_safe_partial",
    "Verif.SR.Lp.C109_lp_prio_fifo_schedulable_partial"
   ],
   "note": "violated (negations proved, for every solver that finds optimal solutions): the request priorities are dropped by add_request; waiting times are taken to be 0 if there is no request of lower or equal priority; requests of higher priority that delay a local lower-priority task are disregarded if the analysed and higher-priority tasks do not use the resource (the last two also if the native code is given the priorities). Proved if all requests for a resource have the same priority. Otherwise as C108."
  },
  {
   "property": "C110",
   "status": "proved",
   "theorems": [
    "Verif.Nested.C110_nesting_exact",
    "Verif.Nested.C110_cycle_incomplete"
   ],
   "note": "For nesting without cycles, which the code assumes; C110_cycle_incomplete shows that the assumption is needed."
  },
  {
   "property": "C111",
   "status": "proved",
   "theorems": [
    "Verif.Nested.C111_outer_locks_exact",
    "Verif.Nested.C111_has_nested_exact",
    "Verif.Nested.C111_outermost_exact"
   ],
   "note": ""
  },
  {
   "property": "C112",
   "status": "partial",
   "theorems": [
    "Verif.Nested.C112_common_outer_violated",
    "Verif.Nested.C112_common_outer_missed",
    "Verif.Nested.C112_common_outer_invented",
    "Verif.Nested.C112_common_outer_undefined",
    "Verif.Nested.C112_common_outer_partial",
    "Verif.Nested.C112_outermost_partial"
   ],
   "note": "violated (negation proved): the overload for two critical sections walks the outer indices of the other critical section in the list of this task, so it misses common locks, invents them, and may read past the end of the list. Proved: the overload that takes the set of held locks is exact, and the answer is right if one of the two sections is outermost."
  },
  {
   "property": "C113",
   "status": "proved",
   "theorems": [
    "Verif.ApaFeas.C113_decides",
    "Verif.ApaFeas.C113_fractions",
    "Verif.ApaFeas.C113_accept",
    "Verif.ApaFeas.C113_reject"
   ],
   "note": "Assumes an exact solver of linear programs (floating-point arithmetic and the solver library are not modelled)."
  },
  {
   "property": "C114",
   "status": "proved",
   "theorems": [
    "Verif.CanSim.C114_ends",
    "Verif.CanSim.C114_legal",
    "Verif.CanSim.C114_complete"
   ],
   "note": "Times are natural numbers (overflow of unsigned long is not modelled); faults are given, their random generation is not modelled."
  },
  {
   "property": "C115",
   "status": "partial",
   "theorems": [
    "Verif.CanSim.C115_violated",
    "Verif.CanSim.C115_start_partial",
    "Verif.CanSim.C115_most_recent_partial"
   ],
   "note": "Violated: a transmission that starts one bit time before a release transmits the job that is not yet released, and the job before it is lost. Proved: the release of the transmitted job is at most one bit time after the start, and the property holds whenever no release is exactly one bit time after the start."
  },
  {
   "property": "C116",
   "status": "partial",
   "theorems": [
    "Verif.CanSim.C116_violated",
    "Verif.CanSim.C116_ends",
    "Verif.CanSim.C116_value",
    "Verif.CanSim.C116_unset_partial"
   ],
   "note": "Violated: for a job that is skipped or not transmitted in time, the function returns a member that was never set. Proved: the computation ends; a value that is set is the time of a complete transmission in a legal sequence without faults; if none is set, the job is not transmitted."
  },
  {
   "property": "C117",
   "status": "partial",
   "theorems": [
    "Verif.CanSim.C117_violated",
    "Verif.CanSim.C117_exact_partial",
    "Verif.CanSim.C117_calls",
    "Verif.CanSim.C117_once"
   ],
   "note": "Violated: a job whose number is set when it begins to be transmitted (since an earlier job waited for too long) gets no deadline event, and its round is never counted. Proved: the count is exact, for both protocols, for each message of which no job is skipped; no round is counted twice, for both protocols and any messages."
  },
  {
   "property": "C118",
   "status": "partial",
   "theorems": [
    "Verif.CanSim.C118_violated",
    "Verif.CanSim.C118_sync_partial",
    "Verif.CanSim.C118_async_partial"
   ],
   "note": "Violated: the test for the synchronous protocol removes the host fault, so that the test for the asynchronous protocol, which follows, does not see it; the corrupted message counts as correct. Proved: the first message of each round is counted correctly for the synchronous protocol, and for the asynchronous one if two host faults corrupt it."
  },
  {
   "property": "C119",
   "status": "proved",
   "theorems": [
    "Verif.CanSim.C119_average",
    "Verif.CanSim.C119_ends",
    "Verif.CanSim.C119_undefined",
    "Verif.CanSim.C119_fresh"
   ],
   "note": "The drawn faults and coins are arbitrary (their distribution is not modelled). An average of no iterations or of an iteration in which no round is counted is undefined (0/0 in the code)."
  },
  {
   "property": "C120",
   "status": "partial",
   "theorems": [
    "Verif.SR.Pedf.C120_pedf_msrp_lp_not_safe",
    "Verif.SR.Pedf.C120_pedf_msrp_lp_partial"
   ],
   "note": "Violated: constraint 12 of the program excludes arrival blocking due to local resources whose ceiling equals the level of the task under analysis, so that tasks that share a local resource are accepted although one of them misses a deadline. Proved: if no two tasks share a local resource, deadlines are at most periods and each task has one entry per resource, accepted tasks meet all deadlines, in all runs in which a job that has waited for a resource uses it."
  },
  {
   "property": "C121",
   "status": "partial",
   "theorems": [
    "Verif.SR.Pedf.C121_pedf_msrp_lp_diverges"
   ],
   "note": "Violated: for tasks of other processors the previous check point is computed by subtracting the period from the deadline, which wraps around, so that QPA never makes progress."
  },
  {
   "property": "C122",
   "status": "partial",
   "theorems": [
    "Verif.Gfrl.C122_gfrl_no_bounds",
    "Verif.Gfrl.C122_gfrl_rejects_partial"
   ],
   "note": "Violated for every set of tasks: `gel_pl.compute_response_bounds` has three parameters but is called with four arguments, so that each call for tasks with bounded tardiness raises an exception. The result false is exact."
  },
  {
   "property": "C123",
   "status": "proved",
   "theorems": [
    "Verif.Gfrl.C123_gfrl_points",
    "Verif.Gfrl.C123_unique"
   ],
   "note": "The theorem is about calls that assign priority points (which they do before the exception of C122)."
  },
  {
   "property": "C124",
   "status": "proved",
   "theorems": [
    "Verif.Gfrl.C124_gfrl_points_found",
    "Verif.Gfrl.C124_ratio_exists",
    "Verif.Gfrl.C124_zero_deadline"
   ],
   "note": "Fractions are exact, as in the code. With a deadline of 0 the call may raise an exception instead (`C124_zero_deadline`)."
  },
  {
   "property": "C125",
   "status": "proved",
   "theorems": [
    "Verif.SR.Lp.Glob.C125_no_progress_fifo_safe"
   ],
   "note": "Each task has one entry per resource; response times fit into `unsigned long`. The solver is assumed to return optimal solutions in exact arithmetic."
  },
  {
   "property": "C126",
   "status": "proved",
   "theorems": [
    "Verif.SR.Lp.Glob.C126_sa_gfmlp_safe"
   ],
   "note": "Each task has one entry per resource; response times fit into `unsigned long`. The solver is assumed to return optimal solutions in exact arithmetic."
  },
  {
   "property": "C127",
   "status": "proved",
   "theorems": [
    "Verif.SR.Lp.Glob.C127_no_progress_priority_safe"
   ],
   "note": "Each task has one entry per resource; deadlines are below 2^32, so that the value UNLIMITED of `unsigned int` is not a time; a resource is released only after the section has executed for its length. The solver is assumed to return optimal solutions in exact arithmetic."
  },
  {
   "property": "C128",
   "status": "proved",
   "theorems": [
    "Verif.SR.Lp.Glob.C128_pip_lp_safe"
   ],
   "note": "As C127."
  },
  {
   "property": "C129",
   "status": "proved",
   "theorems": [
    "Verif.SR.Lp.Glob.C129_priority_lp_ends"
   ],
   "note": "Unbounded integers; the solver itself is assumed to return."
  },
  {
   "property": "C130",
   "status": "partial",
   "theorems": [
    "Verif.SR.Pedf.C130_pedf_fifo_preempt_not_safe",
    "Verif.SR.Pedf.C130_pedf_fifo_preempt_partial"
   ],
   "note": "Violated by the code: two tasks that share a local resource are accepted for every optimal solution of the programs, and a run misses a deadline (as C120). Proved: if no two tasks share a local resource, deadlines are at most periods and each task has one entry per resource, accepted tasks meet all deadlines in all runs in which spinning jobs are preemptable, preempted requests are issued anew, and ties of deadlines are broken in any way."
  },
  {
   "property": "C131",
   "status": "proved",
   "theorems": [
    "Verif.SR.Pedf.LockFree.C131_lockfree_np_not_safe"
   ],
   "note": "Violated by the code: three tasks are accepted for every optimal solution of the programs, and a run misses a deadline."
  },
  {
   "property": "C132",
   "status": "proved",
   "theorems": [
    "Verif.SR.Pedf.LockFree.C132_lockfree_preempt_not_safe"
   ],
   "note": "Violated by the code: four tasks are accepted for every optimal solution of the programs, and a run misses a deadline."
  },
  {
   "property": "C133",
   "status": "proved",
   "theorems": [
    "Verif.SR.Pedf.LockFree.C133_pedf_lp_diverges"
   ],
   "note": "Violated by the code: the wrap-around of C121 affects all three tests."
  },
  {
   "property": "C134",
   "status": "partial",
   "theorems": [
    "Verif.SR.Lp.Omip.C134_omip_not_safe",
    "Verif.SR.Lp.Omip.C134_omip_partial"
   ],
   "note": "Violated by the code: on two processors, a job of one of four tasks that share a resource is blocked for 16 slots although the bound is 13.  The partial theorem shows that the bounds are safe for a single cluster of m processors if no resource is used by more than m and at most 2m tasks.  Several clusters are not covered."
  },
  {
   "property": "C135",
   "status": "partial",
   "theorems": [
    "Verif.Oh.C135_overheads_partial",
    "Verif.Oh.C135_cache_delay_partial",
    "Verif.Oh.C135_plain_violated",
    "Verif.Oh.C135_plain_cache_violated"
   ],
   "note": "Violated by the code: with non_decreasing=False, no file with a column for an overhead can be loaded, because the module does not import piece_wise_linear.  The partial theorems cover the default parameters."
  },
  {
   "property": "C136",
   "status": "partial",
   "theorems": [
    "Verif.Oh.C136_columns_partial",
    "Verif.Oh.C136_columns_violated",
    "Verif.Oh.C136_empty_line_refused"
   ],
   "note": "Violated by the code: if a label occurs again in a later column, the number of the column leads to the number 0 instead of a list, and files with empty lines are refused by default.  The partial theorem covers distinct labels and rows of equal length."
  },
  {
   "property": "C137",
   "status": "partial",
   "theorems": [
    "Verif.Oh.C137_linear_partial",
    "Verif.Oh.C137_is_constant_violated"
   ],
   "note": "Violated by the code: the method raises an exception for every interpolation.  The partial theorem covers linear functions."
  },
  {
   "property": "C138",
   "status": "partial",
   "theorems": [
    "Verif.SR.Lp.C138_partitioned_partial",
    "Verif.SR.Lp.C138_partitioned_schedulable_partial"
   ],
   "note": "Covers partitioned fixed-priority scheduling (clusters of one processor, using_edf=False), with one request entry per resource and distinct priorities on each processor.  Clusters of several processors and EDF are missing."
  },
  {
   "property": "C139",
   "status": "partial",
   "theorems": [
    "Verif.SR.Lp.Glob.C139_violated",
    "Verif.SR.Lp.Glob.C139_unlimited_partial",
    "Verif.SR.Lp.Glob.C139_few_sharing_partial",
    "Verif.SR.Lp.Glob.C139_few_tasks_partial"
   ],
   "note": "Violated by the code: constraints 27 and 28 look at the ceiling of the requested resource instead of the ceilings of the resources that lower-priority tasks hold, so that a task whose own resource has a low ceiling is assumed never to be stalled.  The partial theorems cover priority assignments that are not reasonable if no free resource is withheld (in the run, or because too few tasks share resources), and all assignments with at most m + 1 tasks."
  },
  {
   "property": "C140",
   "status": "partial",
   "theorems": [
    "Verif.SR.Lp.C140_unnested_partial",
    "Verif.SR.Lp.C140_unnested_schedulable_partial"
   ],
   "note": "Proved for task sets whose critical sections are not nested, with any number of critical sections per task and resource.  Missing: runs with nested requests."
  },
  {
   "property": "C141",
   "status": "partial",
   "theorems": [
    "Verif.SR.Lp.C141_always_defined_violated",
    "Verif.SR.Lp.C141_defined_iff",
    "Verif.SR.Lp.C141_ascending_partial"
   ],
   "note": "Violated by the code: if a task on another processor nests a request in a critical section of a resource with a higher id, `guaranteed_held_on_path` is read out of range.  C141_defined_iff says that this is the only cause; C141_ascending_partial proves the property for ascending nesting."
  },
  {
   "property": "C142",
   "status": "proved",
   "theorems": [
    "Verif.SR.Lp.C142_local_resources",
    "Verif.SR.Lp.C142_defined"
   ],
   "note": "Both directions: the bound is reached by a feasible assignment, and no feasible assignment exceeds it."
  },
  {
   "property": "C143",
   "status": "partial",
   "theorems": [
    "Verif.Study.C143_gfl_points_violated",
    "Verif.Study.C143_levels_violated",
    "Verif.Study.C143_points_are_deadlines",
    "Verif.Study.C143_gfl_points_partial"
   ],
   "note": "Violated by the code: the quotient of integers is rounded down to 0, so that the points are the deadlines (G-EDF), and the order of the preemption levels may be reversed.  C143_gfl_points_partial says that the property holds exactly for one processor or cost zero."
  },
  {
   "property": "C144",
   "status": "partial",
   "theorems": [
    "Verif.Study.C144_fixed_point_violated",
    "Verif.Study.C144_confirmed",
    "Verif.Study.C144_first_round_partial"
   ],
   "note": "Violated by the code: the new response times are never assumed in the next round, which repeats the first one on another copy.  The first half (returned response times are confirmed) is proved as C144_confirmed; C144_first_round_partial says that the result is that of one round.  One round of analysis is a parameter of the model."
  },
  {
   "property": "C145",
   "status": "proved",
   "theorems": [
    "Verif.Study.C145_partition",
    "Verif.Study.C145_found"
   ],
   "note": "Clusters of at least one processor; the first cluster may be without processors if its only one is dedicated.  Utilizations are exact rational numbers."
  },
  {
   "property": "C146",
   "status": "partial",
   "theorems": [
    "Verif.SR.Lp.Glob.C146_defined_violated",
    "Verif.SR.Lp.Glob.C146_one_processor_violated",
    "Verif.SR.Lp.Glob.C146_defined_partial"
   ],
   "note": "Violated by the code on one processor: the coefficient 1/(m - 1) is infinite, for every task set with at least two tasks.  C146_defined_partial says that the property holds on two or more processors."
  },
  {
   "property": "C147",
   "status": "partial",
   "theorems": [
    "Verif.SR.Lp.Glob.C147_fmlpp_no_requests_partial",
    "Verif.SR.Lp.Glob.C147_prsb_no_requests_partial",
    "Verif.SR.Lp.Glob.C147_fmlpp_few_tasks_partial",
    "Verif.SR.Lp.Glob.C147_prsb_few_tasks_partial"
   ],
   "note": "Proved for runs in which no request is issued (fixed-priority scheduling), and for at most as many tasks as processors under any work-conserving scheduler.  Missing: runs with requests and more tasks than processors, in which jobs are boosted."
  },
  {
   "property": "C148",
   "status": "partial",
   "theorems": [
    "Verif.LpBackend.C148_handed_over_violated",
    "Verif.LpBackend.C148_integer_violated",
    "Verif.LpBackend.C148_twice_violated",
    "Verif.LpBackend.C148_constraint_violated",
    "Verif.LpBackend.C148_glpk_partial",
    "Verif.LpBackend.C148_cplex_partial"
   ],
   "note": "Violated by the code: with CPLEX, an integer variable without declared range is restricted to 0 and 1, while GLPK admits every non-negative integer; a variable that is listed twice in the objective counts once with both solvers; a constraint with such a variable is rejected by GLPK and changed by CPLEX.  The partial theorems exclude exactly these cases (and, for GLPK, other declared ranges of integer and binary variables than non-negative numbers).  The library functions are modelled by their documented contracts."
  },
  {
   "property": "C149",
   "status": "proved",
   "theorems": [
    "Verif.SR.Lp.C149_preemptive_le_baseline",
    "Verif.SR.Lp.C149_not_preempted_le_msrp",
    "Verif.SR.Lp.C149_lowest_ge_msrp"
   ],
   "note": "The solver is an arbitrary function that returns optimal solutions of the mixed-integer programs; if it returns none, the assertion of the code fails and there is no bound.  Safety of the bound with respect to schedules is not covered."
  },
  {
   "property": "C150",
   "status": "partial",
   "theorems": [
    "Verif.SR.Lp.C150_solver_dependent"
   ],
   "note": "Violated by the code: a task that is preempted twice while it spins has a bound of at least 6 with GLPK and at most 4 with CPLEX, because CPLEX restricts the number of preemptions per resource to 0 and 1.  The theorem is the negation with a concrete task set and the numbering of variables of `VarMapper`."
  },
  {
   "property": "C151",
   "status": "partial",
   "theorems": [
    "Verif.SR.Lp.C151_le_baseline_partial",
    "Verif.SR.Lp.C151_not_preempted_violated",
    "Verif.SR.Lp.C151_python_violated"
   ],
   "note": "The first half is proved.  The second half is violated by the code: a task alone on its processor has a bound of 4 instead of 2, because the variable for the number of preemptions is not constrained; and through the Python interface a task has a bound of 23 instead of 21, because the wait for one resource includes the requests for the other resources of the task."
  },
  {
   "property": "C152",
   "status": "partial",
   "theorems": [
    "Verif.SR.Lp.C152_preemptions_violated"
   ],
   "note": "Violated by the code: the theorem is the negation, with a task set that is accepted and a run in which a job misses its deadline.  The job is preempted twice and delayed by three requests of lower priority; the analysis counts two, as the number of preemptions per resource is a variable between 0 and 1.  For the native function, which gets the locking priorities; the Python interface drops them (C108)."
  },
  {
   "property": "C153",
   "status": "partial",
   "theorems": [
    "Verif.SR.Lp.C153_le_baseline_partial",
    "Verif.SR.Lp.C153_one_resource_partial",
    "Verif.SR.Lp.C153_wait_fixed_point",
    "Verif.SR.Lp.C153_not_preempted_violated"
   ],
   "note": "The first half is proved.  The second half is proved for tasks that use one resource and is violated by the code otherwise: a task that uses two resources has a bound of 23 instead of 21, because the wait for one resource includes the requests for the other."
  },
  {
   "property": "C154",
   "status": "proved",
   "theorems": [
    "Verif.SR.Lp.C154_eq_preemptive_fifo"
   ],
   "note": "For the Python function, which passes the same priority for all requests whatever their locking priorities are (see C155), so that the equality holds for every assignment of priorities.  If the iteration for the waiting times does not end, there is no bound and nothing is claimed."
  },
  {
   "property": "C155",
   "status": "partial",
   "theorems": [
    "Verif.SR.Lp.C155_preempt_prio_fifo_violated",
    "Verif.SR.Lp.C155_native_preempt_prio_fifo_violated",
    "Verif.SR.Lp.C155_wait_fixed_point",
    "Verif.SR.Lp.C155_spin_remote"
   ],
   "note": "Violated by the code: the first two theorems are negations, each with a task set that is accepted and a run in which a job misses its deadline; the others state the bound on the waiting time and the requests it counts explicitly.  Through the Python function, the locking priorities are dropped by `add_request`, and by C154 the bounds are those for FIFO order.  For the native function, which gets the locking priorities, the bound on the waiting time leaves out requests of higher locking priority that delay a preempting task at another resource."
  },
  {
   "property": "C156",
   "status": "proved",
   "theorems": [
    "Verif.Util.C156_rounding",
    "Verif.Util.C156_round_trip",
    "Verif.Util.C156_sums"
   ],
   "note": "With exact numbers; the rounding of floating-point products is not modelled."
  },
  {
   "property": "C157",
   "status": "partial",
   "theorems": [
    "Verif.Util.C157_items",
    "Verif.Util.C157_attributes_partial",
    "Verif.Util.C157_violated",
    "Verif.Util.C157_attributes_iff"
   ],
   "note": "Proved for items of any name, and for attributes unless the class has an attribute of the same name (e.g. items, keys, values, copy): then the value can be stored but the attribute evaluates to the method (negation proved)."
  }
 ]
}