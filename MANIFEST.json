{
 "claims": [
  {
   "property": "C01",
   "status": "proved",
   "theorems": [
    "Verif.Props.C01_compress_is_adjacency"
   ],
   "note": ""
  },
  {
   "property": "C02",
   "status": "proved",
   "theorems": [
    "Verif.Props.C02_weights_accumulate"
   ],
   "note": "for any addition, so also for rounded doubles"
  },
  {
   "property": "C03",
   "status": "proved",
   "theorems": [
    "Verif.Props.C03_order_independent"
   ],
   "note": ""
  },
  {
   "property": "C04",
   "status": "proved",
   "theorems": [
    "Verif.Props.C04_rejects_exactly"
   ],
   "note": ""
  },
  {
   "property": "C05",
   "status": "proved",
   "theorems": [
    "Verif.Props.C05_valid_indices_are_safe",
    "Verif.Props.C05_invalid_indices_are_undefined"
   ],
   "note": ""
  },
  {
   "property": "C06",
   "status": "partial",
   "theorems": [
    "Verif.Props.C06_new_graph_partial",
    "Verif.Props.C06_old_sources_are_rejected",
    "Verif.Props.C06_old_weights_stay"
   ],
   "note": "The claim of the header is false: row/column maxima and old weights survive compress(). The partial theorem assumes every earlier source is below the new row count; the other two theorems prove the failure. C92 says exactly what every history leaves."
  },
  {
   "property": "C07",
   "status": "proved",
   "theorems": [
    "Verif.Props.C07_transpose"
   ],
   "note": ""
  },
  {
   "property": "C08",
   "status": "proved",
   "theorems": [
    "Verif.Props.C08_iteration",
    "Verif.Props.C08_range_for"
   ],
   "note": ""
  },
  {
   "property": "C09",
   "status": "partial",
   "theorems": [
    "Verif.Props.C09_print_partial",
    "Verif.Props.C09_flags_after_print",
    "Verif.Props.C09_print_iterators"
   ],
   "note": "Lines and precision proved. Restoration of the format flags is false (setf only adds flags); C09_flags_after_print proves when it fails."
  },
  {
   "property": "C10",
   "status": "proved",
   "theorems": [
    "Verif.Props.C10_each_vertex_once"
   ],
   "note": ""
  },
  {
   "property": "C100",
   "status": "proved",
   "theorems": [
    "Verif.Props.C100_curve",
    "Verif.Props.C100_lorenz",
    "Verif.Props.C100_sweep"
   ],
   "note": "exact arithmetic; the rounding errors are bounded in C84 and C85"
  },
  {
   "property": "C101",
   "status": "proved",
   "theorems": [
    "Verif.Props.C101_injection",
    "Verif.Props.C101_production",
    "Verif.Props.C101_time_injection",
    "Verif.Props.C101_time_production",
    "Verif.Props.C101_pairs",
    "Verif.Props.C101_injection_cyclic",
    "Verif.Props.C101_production_cyclic",
    "Verif.Props.C101_injection_double",
    "Verif.Props.C101_production_double",
    "Verif.Props.C101_time_injection_cyclic",
    "Verif.Props.C101_time_production_cyclic",
    "Verif.Props.C101_time_injection_double",
    "Verif.Props.C101_time_production_double"
   ],
   "note": "Concentrations, times and pairs in cycle-free flow and exact arithmetic; concentrations and their products with the times of wells with cycles in exact arithmetic and in IEEE 754 doubles, where no cell may have a connection with itself as its only cycle."
  },
  {
   "property": "C102",
   "status": "proved",
   "theorems": [
    "Verif.Props.C102_injection",
    "Verif.Props.C102_production",
    "Verif.Props.C102_injection_global",
    "Verif.Props.C102_production_global",
    "Verif.Props.C102_pairs",
    "Verif.Props.C102_injection_cyclic",
    "Verif.Props.C102_production_cyclic",
    "Verif.Props.C102_injection_double",
    "Verif.Props.C102_production_double",
    "Verif.Props.C102_injection_times_cyclic",
    "Verif.Props.C102_production_times_cyclic",
    "Verif.Props.C102_injection_times_double",
    "Verif.Props.C102_production_times_double",
    "Verif.Props.C102_injection_global_cyclic",
    "Verif.Props.C102_production_global_cyclic",
    "Verif.Props.C102_pairs_cyclic",
    "Verif.Props.C102_injection_global_double",
    "Verif.Props.C102_production_global_double",
    "Verif.Props.C102_pairs_double"
   ],
   "note": "Equalities in cycle-free flow and exact arithmetic; limits with cycles, in exact arithmetic and in IEEE 754 doubles, where no cell may have a connection with itself as its only cycle."
  },
  {
   "property": "C103",
   "status": "proved",
   "theorems": [
    "Verif.Props.C103_injection_sums",
    "Verif.Props.C103_production_sums",
    "Verif.Props.C103_injection",
    "Verif.Props.C103_production",
    "Verif.Props.C103_injection_double",
    "Verif.Props.C103_production_double",
    "Verif.Props.C103_pairs",
    "Verif.Props.C103_three_wells"
   ],
   "note": "The first two in any arithmetic, given that the rates of the wells in each cell add up to the same number; then in exact arithmetic, and in IEEE 754 doubles for at most two wells in a cell. C103_three_wells proves that for doubles this bound is needed."
  },
  {
   "property": "C104",
   "status": "proved",
   "theorems": [
    "Verif.Props.C104_injection_each",
    "Verif.Props.C104_production_each",
    "Verif.Props.C104_injection_fields",
    "Verif.Props.C104_production_fields"
   ],
   "note": "in every arithmetic"
  },
  {
   "property": "C105",
   "status": "proved",
   "theorems": [
    "Verif.Props.C105_reversed",
    "Verif.Props.C105_fluxes",
    "Verif.Props.C105_pairs",
    "Verif.Props.C105_volume",
    "Verif.Props.C105_volume_double"
   ],
   "note": "C105_reversed and C105_fluxes in any arithmetic with the sign and product laws, which exact arithmetic (signLaws_exact, productLaws_exact) and IEEE 754 doubles (Double.signLaws, Double.productLaws) have"
  },
  {
   "property": "C106",
   "status": "proved",
   "theorems": [
    "Verif.Props.C106_direction",
    "Verif.Props.C106_direction_double",
    "Verif.Props.C106_reversed",
    "Verif.Props.C106_timeUnit",
    "Verif.Props.C106_rates",
    "Verif.Props.C106_unswept"
   ],
   "note": "C106_reversed in any arithmetic with the sign and product laws and commutative addition, such as exact arithmetic and IEEE 754 doubles; the unit of time in exact arithmetic"
  },
  {
   "property": "C107",
   "status": "proved",
   "theorems": [
    "Verif.Props.C107_lorenz",
    "Verif.Props.C107_diagnostics",
    "Verif.Props.C107_curve",
    "Verif.Props.C107_diagnostics_curve",
    "Verif.Props.C107_sweep",
    "Verif.Props.C107_cutoff",
    "Verif.Props.C107_double"
   ],
   "note": "in exact arithmetic, C107_double with IEEE 754 doubles; C107_cutoff shows that the same cells must be ignored"
  },
  {
   "property": "C108",
   "status": "proved",
   "theorems": [
    "Verif.Props.C108_curve",
    "Verif.Props.C108_lorenz"
   ],
   "note": "the cutoff proviso cannot be dropped: see C107_cutoff and C45_double_cutoff"
  },
  {
   "property": "C109",
   "status": "proved",
   "theorems": [
    "Verif.Props.C109_sweep",
    "Verif.Props.C109_distance",
    "Verif.Props.C109_breakthrough"
   ],
   "note": "exact arithmetic"
  },
  {
   "property": "C11",
   "status": "proved",
   "theorems": [
    "Verif.Props.C11_components_are_strong"
   ],
   "note": ""
  },
  {
   "property": "C110",
   "status": "proved",
   "theorems": [
    "Verif.Props.C110_lorenz",
    "Verif.Props.C110_two",
    "Verif.Props.C110_piston",
    "Verif.Props.C110_breakthrough"
   ],
   "note": "exact arithmetic"
  },
  {
   "property": "C111",
   "status": "proved",
   "theorems": [
    "Verif.Props.C111_curve",
    "Verif.Props.C111_lorenz",
    "Verif.Props.C111_sweep",
    "Verif.Props.C111_cutoff"
   ],
   "note": "exact arithmetic"
  },
  {
   "property": "C12",
   "status": "proved",
   "theorems": [
    "Verif.Props.C12_reverse_topological"
   ],
   "note": ""
  },
  {
   "property": "C13",
   "status": "proved",
   "theorems": [
    "Verif.Props.C13_reachable_components",
    "Verif.Props.C13_start_order_irrelevant"
   ],
   "note": ""
  },
  {
   "property": "C14",
   "status": "proved",
   "theorems": [
    "Verif.Props.C14_tarjan_safe",
    "Verif.Props.C14_reachable_safe",
    "Verif.Props.C14_results_readable"
   ],
   "note": ""
  },
  {
   "property": "C15",
   "status": "proved",
   "theorems": [
    "Verif.Props.C15_reverse"
   ],
   "note": ""
  },
  {
   "property": "C16",
   "status": "proved",
   "theorems": [
    "Verif.Props.C16_workspace_reuse"
   ],
   "note": ""
  },
  {
   "property": "C17",
   "status": "partial",
   "theorems": [
    "Verif.Props.C17_null_iff_allocation_failed_partial",
    "Verif.Props.C17_reverse_of_null",
    "Verif.Props.C17_ordering_out_of_memory",
    "Verif.Props.C17_localOrdering_out_of_memory",
    "Verif.Props.C17_solve_dereferences_null"
   ],
   "note": "The part about the component routines is proved. The part about solves is false: a NULL result is dereferenced (C17_solve_dereferences_null); the two ordering theorems say exactly what happens for every allocation outcome."
  },
  {
   "property": "C18",
   "status": "partial",
   "theorems": [
    "Verif.Props.C18_table_partial",
    "Verif.Props.C18_what_is_rejected",
    "Verif.Props.C18_negative_is_accepted"
   ],
   "note": "Negative cell indices are not rejected (C18_negative_is_accepted); proved for tables without negative entries, together with the exact rejection condition for all tables."
  },
  {
   "property": "C19",
   "status": "proved",
   "theorems": [
    "Verif.Props.C19_two_dimensional_array",
    "Verif.Props.C19_size_overflow"
   ],
   "note": "For dimensions whose product fits size_t; C19_size_overflow shows what happens otherwise."
  },
  {
   "property": "C20",
   "status": "proved",
   "theorems": [
    "Verif.Props.C20_cell_set",
    "Verif.Props.C20_order_irrelevant",
    "Verif.Props.C20_id_order"
   ],
   "note": ""
  },
  {
   "property": "C21",
   "status": "proved",
   "theorems": [
    "Verif.Props.C21_last_assigned",
    "Verif.Props.C21_moved_from",
    "Verif.Props.C21_no_leak",
    "Verif.Props.C21_reference"
   ],
   "note": ""
  },
  {
   "property": "C22",
   "status": "proved",
   "theorems": [
    "Verif.Props.C22_history_independent"
   ],
   "note": "in every arithmetic; allocation outcomes and iteration limits are arbitrary too"
  },
  {
   "property": "C23",
   "status": "proved",
   "theorems": [
    "Verif.Props.C23_global_range",
    "Verif.Props.C23_local_range",
    "Verif.Props.C23_toolbox"
   ],
   "note": "exact arithmetic"
  },
  {
   "property": "C24",
   "status": "proved",
   "theorems": [
    "Verif.Props.C24_support",
    "Verif.Props.C24_toolbox_injection",
    "Verif.Props.C24_toolbox_production",
    "Verif.Props.C24_any_injection",
    "Verif.Props.C24_any_production"
   ],
   "note": "C24_any_*: any arithmetic, including double, with or without cycles; the others: exact arithmetic"
  },
  {
   "property": "C25",
   "status": "proved",
   "theorems": [
    "Verif.Props.C25_concentration_range",
    "Verif.Props.C25_toolbox"
   ],
   "note": "exact arithmetic"
  },
  {
   "property": "C26",
   "status": "partial",
   "theorems": [
    "Verif.Props.C26_balance_exact",
    "Verif.Props.C26_balance_cyclic_partial",
    "Verif.Props.C26_fails_with_self_connection",
    "Verif.Props.C26_toolbox_injection",
    "Verif.Props.C26_toolbox_production",
    "Verif.Props.C26_toolbox_injection_cyclic_partial",
    "Verif.Props.C26_toolbox_production_cyclic_partial"
   ],
   "note": "Exact for cycle-free flow. For cyclic flow proved in every cell except those that are connected to themselves and lie on no other cycle; there the connection of the cell to itself is missing from the balance, exactly, and C26_fails_with_self_connection proves that the claim is false."
  },
  {
   "property": "C27",
   "status": "proved",
   "theorems": [
    "Verif.Props.C27_tof_balance_local",
    "Verif.Props.C27_tof_balance_global",
    "Verif.Props.C27_tof_balance_cyclic",
    "Verif.Props.C27_toolbox_injection",
    "Verif.Props.C27_toolbox_production"
   ],
   "note": "exact arithmetic; C27_tof_balance_cyclic goes beyond the claim"
  },
  {
   "property": "C28",
   "status": "proved",
   "theorems": [
    "Verif.Props.C28_terminates"
   ],
   "note": "exact arithmetic in an Archimedean ordered field"
  },
  {
   "property": "C29",
   "status": "proved",
   "theorems": [
    "Verif.Props.C29_unreached_capped",
    "Verif.Props.C29_toolbox"
   ],
   "note": "exact arithmetic"
  },
  {
   "property": "C30",
   "status": "proved",
   "theorems": [
    "Verif.Props.C30_rejects_negative",
    "Verif.Props.C30_rejects_sourceless",
    "Verif.Props.C30_accepts_others"
   ],
   "note": "exact arithmetic"
  },
  {
   "property": "C31",
   "status": "proved",
   "theorems": [
    "Verif.Props.C31_sum_le_one",
    "Verif.Props.C31_sum_eq_one",
    "Verif.Props.C31_toolbox",
    "Verif.Props.C31_toolbox_injection",
    "Verif.Props.C31_toolbox_production"
   ],
   "note": "exact arithmetic"
  },
  {
   "property": "C32",
   "status": "proved",
   "theorems": [
    "Verif.Props.C32_global_any_order",
    "Verif.Props.C32_local_any_order",
    "Verif.Props.C32_local_renumbering",
    "Verif.Props.C32_global_renumbering",
    "Verif.Props.C32_flow_determines"
   ],
   "note": "the two any_order theorems hold in every arithmetic; for cell numbers, cycles and doubles see C91"
  },
  {
   "property": "C33",
   "status": "proved",
   "theorems": [
    "Verif.Props.C33_latest_data",
    "Verif.Props.C33_like_fresh"
   ],
   "note": "in every arithmetic"
  },
  {
   "property": "C34",
   "status": "proved",
   "theorems": [
    "Verif.Props.C34_sizes",
    "Verif.Props.C34_missing",
    "Verif.Props.C34_rejected_no_effect",
    "Verif.Props.C34_valid_problem"
   ],
   "note": "the first three in every arithmetic, the last (no other logic_error) in exact arithmetic"
  },
  {
   "property": "C35",
   "status": "proved",
   "theorems": [
    "Verif.Props.C35_rejected",
    "Verif.Props.C35_accepted",
    "Verif.Props.C35_valid_problem"
   ],
   "note": "the first two in every arithmetic"
  },
  {
   "property": "C36",
   "status": "proved",
   "theorems": [
    "Verif.Props.C36_only_ids"
   ],
   "note": "in every arithmetic"
  },
  {
   "property": "C37",
   "status": "proved",
   "theorems": [
    "Verif.Props.C37_reversed",
    "Verif.Props.C37_doubles"
   ],
   "note": "in every arithmetic that obeys the sign laws of Verif.Spec.SignLaws; exact arithmetic does (signLaws_exact), and so do IEEE 754 doubles (C37_doubles)"
  },
  {
   "property": "C38",
   "status": "proved",
   "theorems": [
    "Verif.Props.C38_signs",
    "Verif.Props.C38_sources_add_up",
    "Verif.Props.C33_latest_data"
   ],
   "note": "C38_signs in every arithmetic, sums in exact arithmetic"
  },
  {
   "property": "C39",
   "status": "proved",
   "theorems": [
    "Verif.Props.C39_exchanged_cells",
    "Verif.Props.C39_exchanged_doubles",
    "Verif.Props.C39_zero_connection",
    "Verif.Props.C39_phases",
    "Verif.Props.C39_same_flow"
   ],
   "note": "C39_zero_connection in every arithmetic, C39_exchanged_cells under the sign laws, C39_exchanged_doubles with IEEE 754 doubles, the others in exact arithmetic; with cycles and rounding see C91"
  },
  {
   "property": "C40",
   "status": "proved",
   "theorems": [
    "Verif.Props.C40_no_undefined_behaviour",
    "Verif.Props.C40_valid_problem"
   ],
   "note": ""
  },
  {
   "property": "C41",
   "status": "proved",
   "theorems": [
    "Verif.Props.C41_ids"
   ],
   "note": "in every arithmetic and for every outcome of the allocations"
  },
  {
   "property": "C42",
   "status": "proved",
   "theorems": [
    "Verif.Props.C42_monotone",
    "Verif.Props.C42_points"
   ],
   "note": "exact arithmetic; std::sort is any function that keeps its promise"
  },
  {
   "property": "C43",
   "status": "proved",
   "theorems": [
    "Verif.Props.C43_concave",
    "Verif.Props.C43_largest"
   ],
   "note": "exact arithmetic"
  },
  {
   "property": "C44",
   "status": "proved",
   "theorems": [
    "Verif.Props.C44_range",
    "Verif.Props.C44_area"
   ],
   "note": "exact arithmetic"
  },
  {
   "property": "C45",
   "status": "proved",
   "theorems": [
    "Verif.Props.C45_numbering",
    "Verif.Props.C45_double",
    "Verif.Props.C45_double_cutoff"
   ],
   "note": "exact arithmetic, and IEEE 754 doubles; C45_double_cutoff proves that for doubles the same cells must be above the cutoff"
  },
  {
   "property": "C46",
   "status": "proved",
   "theorems": [
    "Verif.Props.C46_cutoff",
    "Verif.Props.C46_double"
   ],
   "note": "exact arithmetic, and IEEE 754 doubles with no sign bit set"
  },
  {
   "property": "C47",
   "status": "proved",
   "theorems": [
    "Verif.Props.C47_sweep",
    "Verif.Props.C47_points",
    "Verif.Props.C47_line"
   ],
   "note": "exact arithmetic; C47_points says what the points are, C47_line what is between them"
  },
  {
   "property": "C48",
   "status": "proved",
   "theorems": [
    "Verif.Props.C48_curve_sizes",
    "Verif.Props.C48_curve_accepted",
    "Verif.Props.C48_lorenz_sizes",
    "Verif.Props.C48_sweep_sizes"
   ],
   "note": "in every arithmetic and for every sorting function"
  },
  {
   "property": "C49",
   "status": "proved",
   "theorems": [
    "Verif.Props.C49_value",
    "Verif.Props.C49_nonneg_symmetric",
    "Verif.Props.C49_unknown",
    "Verif.Props.C49_sum",
    "Verif.Props.C49_diagnostics"
   ],
   "note": "exact arithmetic, C49_unknown in any"
  },
  {
   "property": "C50",
   "status": "proved",
   "theorems": [
    "Verif.Props.C50_errors",
    "Verif.Props.C50_value",
    "Verif.Props.C50_signs",
    "Verif.Props.C50_sum",
    "Verif.Props.C50_diagnostics"
   ],
   "note": "exact arithmetic, C50_errors in any"
  },
  {
   "property": "C51",
   "status": "proved",
   "theorems": [
    "Verif.Props.C51_balanced"
   ],
   "note": "exact arithmetic"
  },
  {
   "property": "C52",
   "status": "proved",
   "theorems": [
    "Verif.Props.C52_reproducible",
    "Verif.Props.C52_answers_fit",
    "Verif.Props.C52_scaled",
    "Verif.Props.C52_consecutive",
    "Verif.Props.C52_consecutive_normal"
   ],
   "note": "The generator and the distributions of the standard library are parameters; the range of uniform_int_distribution and the scaling of normal_distribution are hypotheses."
  },
  {
   "property": "C53",
   "status": "proved",
   "theorems": [
    "Verif.Props.C53_bounds"
   ],
   "note": "any rounding; applies to double by Double.rounded, where Double models IEEE binary64"
  },
  {
   "property": "C54",
   "status": "proved",
   "theorems": [
    "Verif.Props.C54_no_assertion",
    "Verif.Props.C54_concentrations"
   ],
   "note": "any rounding"
  },
  {
   "property": "C55",
   "status": "proved",
   "theorems": [
    "Verif.Props.C55_curve"
   ],
   "note": "any rounding"
  },
  {
   "property": "C56",
   "status": "proved",
   "theorems": [
    "Verif.Props.C56_volume",
    "Verif.Props.C56_fluxes"
   ],
   "note": "any rounding"
  },
  {
   "property": "C57",
   "status": "proved",
   "theorems": [
    "Verif.Props.C57_times"
   ],
   "note": "IEEE binary64 with rounding to nearest"
  },
  {
   "property": "C58",
   "status": "proved",
   "theorems": [
    "Verif.Props.C58_injection",
    "Verif.Props.C58_production"
   ],
   "note": "every arithmetic; the heap holds the blocks of tarjan.c, C++ containers are not on it; a call that ends in undefined behaviour (C17) or does not end is covered only by: no invalid pointer was used"
  },
  {
   "property": "C59",
   "status": "proved",
   "theorems": [
    "Verif.Props.C59_history",
    "Verif.Props.C59_no_leak"
   ],
   "note": "the program passes pointers it got and sets a pointer to null after destroying the object"
  },
  {
   "property": "C60",
   "status": "partial",
   "theorems": [
    "Verif.Props.C60_same_or_overflow",
    "Verif.Props.C60_no_overflow_partial",
    "Verif.Props.C60_acyclic_partial",
    "Verif.Props.C60_always_ends",
    "Verif.Props.C60_overflows"
   ],
   "note": "the same results for every input that needs at most INT_MAX sweeps per component; with counters every call on valid data ends, in every arithmetic, if need be by the overflow; C60_overflows proves that more can be needed (exact arithmetic); C88 bounds the number of sweeps with doubles under conditions on the data"
  },
  {
   "property": "C61",
   "status": "proved",
   "theorems": [
    "Verif.Props.C61_objects",
    "Verif.Props.C61_no_leak"
   ],
   "note": "every arithmetic"
  },
  {
   "property": "C62",
   "status": "proved",
   "theorems": [
    "Verif.Props.C62_global",
    "Verif.Props.C62_local",
    "Verif.Props.C62_injection",
    "Verif.Props.C62_production",
    "Verif.Props.C62_injection_double",
    "Verif.Props.C62_production_double",
    "Verif.Props.C62_injection_double_global",
    "Verif.Props.C62_production_double_global"
   ],
   "note": "exact arithmetic; with IEEE 754 doubles (data of ordinary magnitude) up to a few rounding errors, where the concentration is at least 2^-300, for global times where the errors of concentrations bounded in C80 are at most a half"
  },
  {
   "property": "C63",
   "status": "proved",
   "theorems": [
    "Verif.Props.C63_curve",
    "Verif.Props.C63_derived"
   ],
   "note": "exact arithmetic"
  },
  {
   "property": "C64",
   "status": "proved",
   "theorems": [
    "Verif.Props.C64_injection",
    "Verif.Props.C64_production"
   ],
   "note": "IEEE binary64 with rounding to nearest"
  },
  {
   "property": "C65",
   "status": "proved",
   "theorems": [
    "Verif.Props.C65_tarjan_listing",
    "Verif.Props.C65_reachable_listing",
    "Verif.Props.C65_ring_backwards"
   ],
   "note": "reversal keeps the listing of each component (C15)"
  },
  {
   "property": "C66",
   "status": "partial",
   "theorems": [
    "Verif.Props.C66_acyclic_partial",
    "Verif.Props.C66_endless"
   ],
   "note": "proved without cycles, in every arithmetic; C66_endless proves that doubles with cycles need not return (valid balanced problem of 10003 cells) and that the counter of sweeps then overflows; with exact arithmetic see C40, with doubles under conditions on the data see C86"
  },
  {
   "property": "C67",
   "status": "proved",
   "theorems": [
    "Verif.Props.C67_same",
    "Verif.Props.C67_no_undefined_behaviour",
    "Verif.Props.C67_exact",
    "Verif.Props.C67_differ"
   ],
   "note": "C67_differ is the overflow example: assertion against a solution with wrong times"
  },
  {
   "property": "C68",
   "status": "proved",
   "theorems": [
    "Verif.Props.C68_repeated",
    "Verif.Props.C68_first_flux",
    "Verif.Props.C68_mixed_inflow",
    "Verif.Props.C68_old_flux"
   ],
   "note": "every arithmetic; C68_first_flux and C68_mixed_inflow show what happens when the assignments are not repeated"
  },
  {
   "property": "C69",
   "status": "proved",
   "theorems": [
    "Verif.Props.C69_outcomes",
    "Verif.Props.C69_weighted",
    "Verif.Props.C69_compress_again",
    "Verif.Props.C69_permanent",
    "Verif.Props.C69_weight_lost"
   ],
   "note": "C69_weight_lost proves that the last case occurs"
  },
  {
   "property": "C70",
   "status": "proved",
   "theorems": [
    "Verif.Props.C70_mean",
    "Verif.Props.C70_injection",
    "Verif.Props.C70_production",
    "Verif.Props.C70_injection_cyclic",
    "Verif.Props.C70_production_cyclic",
    "Verif.Props.C70_injection_double",
    "Verif.Props.C70_production_double"
   ],
   "note": "equality in exact arithmetic without cycles; with cycles, and with doubles, up to explicit error bounds"
  },
  {
   "property": "C71",
   "status": "proved",
   "theorems": [
    "Verif.Props.C71_total",
    "Verif.Props.C71_total_production",
    "Verif.Props.C71_pair_arrival",
    "Verif.Props.C71_pair_departure"
   ],
   "note": "exact arithmetic"
  },
  {
   "property": "C72",
   "status": "partial",
   "theorems": [
    "Verif.Props.C72_injection_partial",
    "Verif.Props.C72_production_partial",
    "Verif.Props.C72_any_rounding_injection_partial",
    "Verif.Props.C72_any_rounding_production_partial",
    "Verif.Props.C72_cyclic_injection_partial",
    "Verif.Props.C72_cyclic_production_partial",
    "Verif.Props.C72_doubles_cyclic_injection_partial",
    "Verif.Props.C72_doubles_cyclic_production_partial",
    "Verif.Props.C72_doubles_cyclic_global_injection_partial",
    "Verif.Props.C72_doubles_cyclic_global_production_partial",
    "Verif.Props.C72_fails_with_slow_cell"
   ],
   "note": "exact arithmetic, and any rounding, for flow without cycles, if the cells upstream take more than 200 years to fill with both pore volumes or with neither; C72_fails_with_slow_cell proves that it is false otherwise; for flow with cycles up to the tolerances of the iteration, in exact arithmetic (C72_cyclic_*), and with doubles also up to rounding errors (C72_doubles_cyclic_*)"
  },
  {
   "property": "C73",
   "status": "proved",
   "theorems": [
    "Verif.Props.C73_injection",
    "Verif.Props.C73_production",
    "Verif.Props.C73_injection_cyclic",
    "Verif.Props.C73_production_cyclic",
    "Verif.Props.C73_injection_double",
    "Verif.Props.C73_production_double"
   ],
   "note": "exact without cycles; with cycles (no cell whose only cycle is a self-connection) and with doubles up to the tolerance of the solver and rounding errors"
  },
  {
   "property": "C74",
   "status": "proved",
   "theorems": [
    "Verif.Props.C74_global",
    "Verif.Props.C74_local",
    "Verif.Props.C74_injection",
    "Verif.Props.C74_production"
   ],
   "note": "exact arithmetic"
  },
  {
   "property": "C75",
   "status": "proved",
   "theorems": [
    "Verif.Props.C75_injection",
    "Verif.Props.C75_production",
    "Verif.Props.C75_volume",
    "Verif.Props.C75_fluxes",
    "Verif.Props.C75_curve"
   ],
   "note": "exact arithmetic with infinities and NaN"
  },
  {
   "property": "C76",
   "status": "proved",
   "theorems": [
    "Verif.Props.C76_exact",
    "Verif.Props.C76_error",
    "Verif.Props.C76_bound",
    "Verif.Props.C76_sum",
    "Verif.Props.C76_injection",
    "Verif.Props.C76_production",
    "Verif.Props.C76_injection_sum",
    "Verif.Props.C76_production_sum"
   ],
   "note": "exact arithmetic"
  },
  {
   "property": "C77",
   "status": "proved",
   "theorems": [
    "Verif.Props.C77_error",
    "Verif.Props.C77_times",
    "Verif.Props.C77_injection",
    "Verif.Props.C77_production",
    "Verif.Props.C77_global_error",
    "Verif.Props.C77_injection_global",
    "Verif.Props.C77_production_global"
   ],
   "note": "exact arithmetic"
  },
  {
   "property": "C78",
   "status": "proved",
   "theorems": [
    "Verif.Props.C78_curve",
    "Verif.Props.C78_sweep",
    "Verif.Props.C78_lorenz",
    "Verif.Props.C78_lorenz_exact"
   ],
   "note": "in every arithmetic; the value -1 in exact arithmetic"
  },
  {
   "property": "C79",
   "status": "proved",
   "theorems": [
    "Verif.Props.C79_volume",
    "Verif.Props.C79_fluxes",
    "Verif.Props.C79_pairs"
   ],
   "note": "IEEE 754 doubles, round to nearest even"
  },
  {
   "property": "C80",
   "status": "proved",
   "theorems": [
    "Verif.Props.C80_injection_balance",
    "Verif.Props.C80_production_balance",
    "Verif.Props.C80_injection",
    "Verif.Props.C80_production",
    "Verif.Props.C80_injection_sum",
    "Verif.Props.C80_production_sum"
   ],
   "note": "IEEE 754 doubles, round to nearest even; for runs that return (with doubles not all do, see C66)"
  },
  {
   "property": "C81",
   "status": "proved",
   "theorems": [
    "Verif.Props.C81_injection_balance",
    "Verif.Props.C81_production_balance",
    "Verif.Props.C81_injection",
    "Verif.Props.C81_production"
   ],
   "note": "IEEE 754 doubles, round to nearest even; for runs that return (with doubles not all do, see C66)"
  },
  {
   "property": "C82",
   "status": "proved",
   "theorems": [
    "Verif.Props.C82_injection",
    "Verif.Props.C82_production"
   ],
   "note": "IEEE 754 doubles, round to nearest even; for runs that return (with doubles not all do, see C66)"
  },
  {
   "property": "C83",
   "status": "proved",
   "theorems": [
    "Verif.Props.C83_meanDifference"
   ],
   "note": "exact arithmetic"
  },
  {
   "property": "C84",
   "status": "proved",
   "theorems": [
    "Verif.Props.C84_curve",
    "Verif.Props.C84_line",
    "Verif.Props.C84_area",
    "Verif.Props.C84_lorenz"
   ],
   "note": "IEEE 754 doubles, round to nearest even"
  },
  {
   "property": "C85",
   "status": "proved",
   "theorems": [
    "Verif.Props.C85_points",
    "Verif.Props.C85_not_monotone"
   ],
   "note": "IEEE 754 doubles, round to nearest even"
  },
  {
   "property": "C86",
   "status": "proved",
   "theorems": [
    "Verif.Props.C86_injection",
    "Verif.Props.C86_production"
   ],
   "note": "IEEE 754 doubles, round to nearest even; the bounds are sufficient, not necessary (C66_endless exceeds them)"
  },
  {
   "property": "C87",
   "status": "proved",
   "theorems": [
    "Verif.Props.C87_read_back",
    "Verif.Props.C87_rebuild"
   ],
   "note": "IEEE 754 doubles; text as std::num_put writes it in the C locale with field width 0; reading means rounding the decimal number to the nearest double, ties to even"
  },
  {
   "property": "C88",
   "status": "proved",
   "theorems": [
    "Verif.Props.C88_injection",
    "Verif.Props.C88_production"
   ],
   "note": "IEEE 754 doubles, round to nearest even; the bounds are sufficient, not necessary"
  },
  {
   "property": "C89",
   "status": "proved",
   "theorems": [
    "Verif.Props.C89_volume",
    "Verif.Props.C89_fluxes",
    "Verif.Props.C89_balance",
    "Verif.Props.C89_injected",
    "Verif.Props.C89_produced",
    "Verif.Props.C89_volumes"
   ],
   "note": "IEEE 754 doubles, round to nearest even"
  },
  {
   "property": "C90",
   "status": "proved",
   "theorems": [
    "Verif.Props.C90_producer",
    "Verif.Props.C90_injector",
    "Verif.Props.C90_total_injection",
    "Verif.Props.C90_total_production"
   ],
   "note": "IEEE 754 doubles, round to nearest even"
  },
  {
   "property": "C91",
   "status": "proved",
   "theorems": [
    "Verif.Props.C91_injection",
    "Verif.Props.C91_production",
    "Verif.Props.C91_derived",
    "Verif.Props.C91_injection_cyclic",
    "Verif.Props.C91_production_cyclic",
    "Verif.Props.C91_injection_double",
    "Verif.Props.C91_production_double",
    "Verif.Props.C91_injection_times",
    "Verif.Props.C91_production_times",
    "Verif.Props.C91_permutation"
   ],
   "note": "exact arithmetic; in the theorems _double and _times IEEE 754 doubles, round to nearest even"
  },
  {
   "property": "C92",
   "status": "proved",
   "theorems": [
    "Verif.Props.C92_every_history"
   ],
   "note": "every arithmetic; says exactly how the object differs from what the header promises (C06)"
  },
  {
   "property": "C93",
   "status": "proved",
   "theorems": [
    "Verif.Props.C93_threads",
    "Verif.Props.C93_all_finish",
    "Verif.Props.C93_c_interface"
   ],
   "note": "every arithmetic; interleavings of accesses to the heap that malloc manages, one block per access; C++ containers belong to the objects of one thread; malloc and free assumed safe to call from several threads, as the C standard has it; loops take fuel"
  },
  {
   "property": "C94",
   "status": "proved",
   "theorems": [
    "Verif.Props.C94_injection",
    "Verif.Props.C94_production",
    "Verif.Props.C94_again_injection",
    "Verif.Props.C94_again_production"
   ],
   "note": "every arithmetic; requests of containers are numbered and each may fail; memory the containers themselves hold is returned by their destructors, which are not modelled; the memory for exception objects is taken to be there; loops take fuel"
  },
  {
   "property": "C95",
   "status": "proved",
   "theorems": [
    "Verif.Props.C95_injection",
    "Verif.Props.C95_production",
    "Verif.Props.C95_injection_cyclic",
    "Verif.Props.C95_production_cyclic",
    "Verif.Props.C95_injection_double",
    "Verif.Props.C95_production_double"
   ],
   "note": "the first two in every arithmetic, with it IEEE 754 doubles; those with cycles in exact arithmetic and in IEEE 754 doubles, where no cell may have a connection with itself as its only cycle"
  },
  {
   "property": "C96",
   "status": "proved",
   "theorems": [
    "Verif.Props.C96_injection",
    "Verif.Props.C96_production",
    "Verif.Props.C96_pairs",
    "Verif.Props.C96_injection_cyclic",
    "Verif.Props.C96_production_cyclic",
    "Verif.Props.C96_injection_double",
    "Verif.Props.C96_production_double",
    "Verif.Props.C96_time_injection_cyclic",
    "Verif.Props.C96_time_production_cyclic",
    "Verif.Props.C96_time_injection_double",
    "Verif.Props.C96_time_production_double"
   ],
   "note": "exact arithmetic; in the theorems _double IEEE 754 doubles, round to nearest even; with cycles no cell may have a connection with itself as its only cycle"
  },
  {
   "property": "C97",
   "status": "proved",
   "theorems": [
    "Verif.Props.C97_injection",
    "Verif.Props.C97_production",
    "Verif.Props.C97_pairs",
    "Verif.Props.C97_injection_cyclic",
    "Verif.Props.C97_production_cyclic",
    "Verif.Props.C97_injection_double",
    "Verif.Props.C97_production_double",
    "Verif.Props.C97_time_injection_cyclic",
    "Verif.Props.C97_time_production_cyclic",
    "Verif.Props.C97_time_injection_double",
    "Verif.Props.C97_time_production_double",
    "Verif.Props.C97_jump"
   ],
   "note": "Cycle-free flow in exact arithmetic by induction along levels; with cycles and with doubles by comparing the carried fields. C97_jump proves that times of flight jump when a cell upstream becomes too slow, so the hypothesis on slow cells is needed."
  },
  {
   "property": "C98",
   "status": "proved",
   "theorems": [
    "Verif.Props.C98_nothing",
    "Verif.Props.C98_pairs",
    "Verif.Props.C98_alone_injection",
    "Verif.Props.C98_alone_production",
    "Verif.Props.C98_alone_injection_cyclic",
    "Verif.Props.C98_alone_production_cyclic",
    "Verif.Props.C98_alone_injection_double",
    "Verif.Props.C98_alone_production_double"
   ],
   "note": "C98_nothing in every arithmetic, with it IEEE 754 doubles; the converse in exact arithmetic, because with doubles a positive product may be rounded to zero; the part on concentration 1 in cycle-free flow, then with cycles in exact arithmetic and in IEEE 754 doubles, where no cell may have a connection with itself as its only cycle"
  },
  {
   "property": "C99",
   "status": "proved",
   "theorems": [
    "Verif.Props.C99_injection",
    "Verif.Props.C99_production",
    "Verif.Props.C99_time_injection",
    "Verif.Props.C99_time_production",
    "Verif.Props.C99_injection_cyclic",
    "Verif.Props.C99_production_cyclic",
    "Verif.Props.C99_injection_double",
    "Verif.Props.C99_production_double",
    "Verif.Props.C99_rise"
   ],
   "note": "The first four in cycle-free flow and exact arithmetic; those with cycles in exact arithmetic and in IEEE 754 doubles, where no cell may have a connection with itself as its only cycle. C99_rise proves that the hypothesis on slow cells is needed for the times."
  }
 ]
}