{
 "claims": [
  {
   "property": "C01",
   "status": "proved",
   "theorems": [
    "PyBBN.C01_history_is_log",
    "PyBBN.C01_append_preserves_history",
    "PyBBN.C01_appendDict",
    "PyBBN.C01_truncate_empty_loses_row",
    "PyBBN.C01_truncate_empty_shows_rows"
   ],
   "note": ""
  },
  {
   "property": "C02",
   "status": "partial",
   "theorems": [
    "PyBBN.C02_nonneg_index_partial",
    "PyBBN.C02_two_dimensional_index",
    "PyBBN.C02_last_index_reads_past_end",
    "PyBBN.C02_last_index_wrong"
   ],
   "note": "Non-negative indices and the 2D table are proved right; negative indices of the record table are refuted with a witness (C02_last_index_wrong)."
  },
  {
   "property": "C03",
   "status": "partial",
   "theorems": [
    "PyBBN.C03_euler_independent_partial",
    "PyBBN.C03_history_shared",
    "PyBBN.C03_step_depends_on_other"
   ],
   "note": "The class-level table is shared: C03_history_shared and C03_step_depends_on_other refute the full claim. Independence of the states and in-order presence of own rows is proved for all interleavings in Euler mode."
  },
  {
   "property": "C04",
   "status": "partial",
   "theorems": [
    "PyBBN.C04_unset",
    "PyBBN.C04_unset_documented",
    "PyBBN.C04_numeric_override",
    "PyBBN.C04_switch_override_partial",
    "PyBBN.C04_False_means_on",
    "PyBBN.C04_off_switch_returns_string",
    "PyBBN.C04_unknown",
    "PyBBN.C04_unknown_switch",
    "PyBBN.C04_local"
   ],
   "note": "Numeric settings and defaults proved; the switch part of the statement is false in the code and refuted by C04_False_means_on."
  },
  {
   "property": "C05",
   "status": "proved",
   "theorems": [
    "PyBBN.C05_getboolenv",
    "PyBBN.C05_false_friends"
   ],
   "note": ""
  },
  {
   "property": "C06",
   "status": "proved",
   "theorems": [
    "PyBBN.C06_contents",
    "PyBBN.C06_capacity",
    "PyBBN.C06_extremes"
   ],
   "note": ""
  },
  {
   "property": "C07",
   "status": "proved",
   "theorems": [
    "PyBBN.C07_throttle",
    "PyBBN.C07_output",
    "PyBBN.C07_rate_bound"
   ],
   "note": ""
  },
  {
   "property": "C08",
   "status": "proved",
   "theorems": [
    "PyBBN.C08_binary_find",
    "PyBBN.C08_python_agrees"
   ],
   "note": ""
  },
  {
   "property": "C09",
   "status": "proved",
   "theorems": [
    "PyBBN.C09_exact_on_grid",
    "PyBBN.C09_below_raises",
    "PyBBN.C09_above",
    "PyBBN.C09_tail_decreasing",
    "PyBBN.C09_total",
    "PyBBN.C09_python_agrees"
   ],
   "note": ""
  },
  {
   "property": "C10",
   "status": "proved",
   "theorems": [
    "PyBBN.C10_thermal_reproduced",
    "PyBBN.C10_agrees_with_equilibrium"
   ],
   "note": ""
  },
  {
   "property": "C11",
   "status": "proved",
   "theorems": [
    "PyBBN.C11_between_neighbours"
   ],
   "note": ""
  },
  {
   "property": "C12",
   "status": "partial",
   "theorems": [
    "PyBBN.C12_exact_on_grid_partial",
    "PyBBN.C12_characterisation_partial",
    "PyBBN.C12_affine_partial",
    "PyBBN.C12_wrong_cell"
   ],
   "note": "The code picks the wrong cell; C12_wrong_cell refutes the full claim, the partial theorem states when the value is the chord."
  },
  {
   "property": "C13",
   "status": "proved",
   "theorems": [
    "PyBBN.C13_exact_on_grid",
    "PyBBN.C13_above",
    "PyBBN.C13_affine",
    "PyBBN.C13_quadratic"
   ],
   "note": ""
  },
  {
   "property": "C14",
   "status": "proved",
   "theorems": [
    "PyBBN.C14_exact",
    "PyBBN.C14_exact_auto",
    "PyBBN.C14_last_samples_only",
    "PyBBN.C14_errors"
   ],
   "note": ""
  },
  {
   "property": "C15",
   "status": "proved",
   "theorems": [
    "PyBBN.C15_solves",
    "PyBBN.C15_exact",
    "PyBBN.C15_auto_total",
    "PyBBN.C15_order_one_raises"
   ],
   "note": ""
  },
  {
   "property": "C16",
   "status": "proved",
   "theorems": [
    "PyBBN.C16_unique_solution",
    "PyBBN.C16_positive",
    "PyBBN.C16_iterates_monotone"
   ],
   "note": ""
  },
  {
   "property": "C17",
   "status": "proved",
   "theorems": [
    "PyBBN.C17_euler_heun",
    "PyBBN.C17_trapezoid",
    "PyBBN.C17_heun_second_order"
   ],
   "note": ""
  },
  {
   "property": "C18",
   "status": "partial",
   "theorems": [
    "PyBBN.C18_no_integrals_partial",
    "PyBBN.C18_zero_terms_grow"
   ],
   "note": "False in the code: C18_zero_terms_grow shows growth by the factor 1+h whenever integrals are registered. Proved when no integral is registered."
  },
  {
   "property": "C19",
   "status": "proved",
   "theorems": [
    "PyBBN.C19_linear",
    "PyBBN.C19_empty",
    "PyBBN.C19_swap",
    "PyBBN.C19_monotone",
    "PyBBN.C19_nonneg",
    "PyBBN.C19_exact_degree",
    "PyBBN.C19_affine",
    "PyBBN.C19_double_iterated",
    "PyBBN.C19_double_product"
   ],
   "note": ""
  },
  {
   "property": "C20",
   "status": "proved",
   "theorems": [
    "PyBBN.C20_linear",
    "PyBBN.C20_log",
    "PyBBN.C20_defaults"
   ],
   "note": ""
  },
  {
   "property": "C21",
   "status": "proved",
   "theorems": [
    "PyBBN.C21_terminates",
    "PyBBN.C21_bound_exists"
   ],
   "note": ""
  },
  {
   "property": "C22",
   "status": "proved",
   "theorems": [
    "PyBBN.C22_creation",
    "PyBBN.C22_creation_iff",
    "PyBBN.C22_after_update"
   ],
   "note": ""
  },
  {
   "property": "C23",
   "status": "proved",
   "theorems": [
    "PyBBN.C23_stepping"
   ],
   "note": ""
  },
  {
   "property": "C24",
   "status": "proved",
   "theorems": [
    "PyBBN.C24_time_increases",
    "PyBBN.C24_second_run_goes_back"
   ],
   "note": ""
  },
  {
   "property": "C25",
   "status": "proved",
   "theorems": [
    "PyBBN.C25_result",
    "PyBBN.C25_terminates",
    "PyBBN.C25_bound_exists"
   ],
   "note": ""
  },
  {
   "property": "C26",
   "status": "partial",
   "theorems": [
    "PyBBN.C26_euler",
    "PyBBN.C26_settled_partial",
    "PyBBN.C26_first_run"
   ],
   "note": "False for the first steps of a run in Adams-Bashforth mode: C26_first_run gives the exact (wrong) weights. Proved for Euler mode and once four genuine slopes are recorded."
  },
  {
   "property": "C27",
   "status": "proved",
   "theorems": [
    "PyBBN.C27_equilibrium_follows",
    "PyBBN.C27_decoupled_frozen",
    "PyBBN.C27_decoupling_step",
    "PyBBN.C27_nonthermal_charged_follows",
    "PyBBN.C27_irreversible",
    "PyBBN.C27_history",
    "PyBBN.C27_irreversible_run"
   ],
   "note": ""
  },
  {
   "property": "C28",
   "status": "proved",
   "theorems": [
    "PyBBN.C28_conditions",
    "PyBBN.C28_noneq_iff",
    "PyBBN.C28_one_way",
    "PyBBN.C28_massless"
   ],
   "note": ""
  },
  {
   "property": "C29",
   "status": "proved",
   "theorems": [
    "PyBBN.C29_equilibrium_untouched",
    "PyBBN.C29_pointwise",
    "PyBBN.C29_infinite_raises",
    "PyBBN.C29_nonneg",
    "PyBBN.C29_pauli_not_enforced"
   ],
   "note": ""
  },
  {
   "property": "C30",
   "status": "proved",
   "theorems": [
    "PyBBN.C30_is_averaged_probability",
    "PyBBN.C30_symmetric",
    "PyBBN.C30_row_sum",
    "PyBBN.C30_entry_bounds",
    "PyBBN.C30_survival_third",
    "PyBBN.C30_used_table"
   ],
   "note": ""
  },
  {
   "property": "C31",
   "status": "proved",
   "theorems": [
    "PyBBN.C31_total_conserved",
    "PyBBN.C31_universe_conserves",
    "PyBBN.C31_between",
    "PyBBN.C31_inactive",
    "PyBBN.C31_subset_loses",
    "PyBBN.C31_duplicate_flavour_loses"
   ],
   "note": ""
  },
  {
   "property": "C32",
   "status": "proved",
   "theorems": [
    "PyBBN.C32_full",
    "PyBBN.C32_creation_decay",
    "PyBBN.C32_negative_raises",
    "PyBBN.C32_first_negative_unnoticed"
   ],
   "note": ""
  },
  {
   "property": "C33",
   "status": "proved",
   "theorems": [
    "PyBBN.C33_gain_eq_loss",
    "PyBBN.C33_functional_zero",
    "PyBBN.C33_integrand4_zero",
    "PyBBN.C33_integrand3_zero"
   ],
   "note": ""
  },
  {
   "property": "C34",
   "status": "proved",
   "theorems": [
    "PyBBN.C34_signs"
   ],
   "note": ""
  },
  {
   "property": "C35",
   "status": "proved",
   "theorems": [
    "PyBBN.C35_four",
    "PyBBN.C35_integrand_support",
    "PyBBN.C35_three",
    "PyBBN.C35_three_zero_momentum",
    "PyBBN.C35_three_sound"
   ],
   "note": ""
  },
  {
   "property": "C36",
   "status": "proved",
   "theorems": [
    "PyBBN.C36_integral",
    "PyBBN.C36_symmetric",
    "PyBBN.C36_bounds",
    "PyBBN.C36_support",
    "PyBBN.C36_published"
   ],
   "note": ""
  },
  {
   "property": "C37",
   "status": "proved",
   "theorems": [
    "PyBBN.C37_integral",
    "PyBBN.C37_published",
    "PyBBN.C37_pair_symmetric",
    "PyBBN.C37_support",
    "PyBBN.C37_not_pair_exchange_symmetric"
   ],
   "note": ""
  },
  {
   "property": "C38",
   "status": "proved",
   "theorems": [
    "PyBBN.C38_integral",
    "PyBBN.C38_symmetric",
    "PyBBN.C38_support",
    "PyBBN.C38_continuous"
   ],
   "note": ""
  },
  {
   "property": "C39",
   "status": "partial",
   "theorems": [
    "PyBBN.C39_Db1_limit",
    "PyBBN.C39_Db2_limit",
    "PyBBN.C39_massive_no_jump",
    "PyBBN.C39_massless_term_absent",
    "PyBBN.C39_massless_jump",
    "PyBBN.C39_massless_no_jump_partial"
   ],
   "note": "Proved for massive first particles in general and for massless ones when the mass term does not involve particle 0; for massless first particles with a K2 term involving particle 0 the code jumps (C39_massless_jump)."
  },
  {
   "property": "C40",
   "status": "partial",
   "theorems": [
    "PyBBN.C40_four_not_scattering",
    "PyBBN.C40_three_value",
    "PyBBN.C40_three",
    "PyBBN.C40_scattering_partial",
    "PyBBN.C40_scattering_limit",
    "PyBBN.C40_scattering_depends"
   ],
   "note": "Proved for decay, creation and all three-particle reactions. For four-particle scattering the upper limit carries over between iterations of a thread: C40_scattering_depends refutes independence of the schedule; the partial theorem gives the sufficient condition."
  },
  {
   "property": "C41",
   "status": "proved",
   "theorems": [
    "PyBBN.C41_legs_once",
    "PyBBN.C41_charge_balance"
   ],
   "note": ""
  },
  {
   "property": "C42",
   "status": "proved",
   "theorems": [
    "PyBBN.C42_legs",
    "PyBBN.C42_exactly_the_crossings"
   ],
   "note": ""
  },
  {
   "property": "C43",
   "status": "proved",
   "theorems": [
    "PyBBN.C43_construct",
    "PyBBN.C43_stack",
    "PyBBN.C43_not_stackable",
    "PyBBN.C43_relabel"
   ],
   "note": ""
  },
  {
   "property": "C44",
   "status": "proved",
   "theorems": [
    "PyBBN.C44_distinct",
    "PyBBN.C44_represented",
    "PyBBN.C44_amplitude",
    "PyBBN.C44_constant_dropped",
    "PyBBN.C44_constant_absorbs",
    "PyBBN.C44_same_positions",
    "PyBBN.C44_generated",
    "PyBBN.C44_three",
    "PyBBN.C44_three_zero_raises"
   ],
   "note": ""
  },
  {
   "property": "C45",
   "status": "proved",
   "theorems": [
    "PyBBN.C45_interaction_raises",
    "PyBBN.C45_keeps_nothing"
   ],
   "note": ""
  },
  {
   "property": "C46",
   "status": "proved",
   "theorems": [
    "PyBBN.C46_symmetric",
    "PyBBN.C46_unique",
    "PyBBN.C46_threshold"
   ],
   "note": ""
  },
  {
   "property": "C47",
   "status": "proved",
   "theorems": [
    "PyBBN.C47_four",
    "PyBBN.C47_three",
    "PyBBN.C47_three_length",
    "PyBBN.C47_three_values",
    "PyBBN.C47_single_point"
   ],
   "note": ""
  },
  {
   "property": "C48",
   "status": "proved",
   "theorems": [
    "PyBBN.C48_at_least_mass",
    "PyBBN.C48_monotone",
    "PyBBN.C48_regimes",
    "PyBBN.C48_gstar",
    "PyBBN.C48_value",
    "PyBBN.C48_selected"
   ],
   "note": ""
  },
  {
   "property": "C49",
   "status": "proved",
   "theorems": [
    "PyBBN.C49_detect",
    "PyBBN.C49_latch",
    "PyBBN.C49_reference",
    "PyBBN.C49_comoving",
    "PyBBN.C49_dilution_suffices"
   ],
   "note": ""
  },
  {
   "property": "C50",
   "status": "proved",
   "theorems": [
    "PyBBN.C50_transition",
    "PyBBN.C50_failures",
    "PyBBN.C50_unregistered",
    "PyBBN.C50_no_history"
   ],
   "note": ""
  },
  {
   "property": "C51",
   "status": "proved",
   "theorems": [
    "PyBBN.KEnv.C51_empty",
    "PyBBN.KEnv.C51_nonneg",
    "PyBBN.KEnv.C51_ranges_cover",
    "PyBBN.KEnv.C51_detailed_balance",
    "PyBBN.KEnv.C51_rates_balance"
   ],
   "note": ""
  },
  {
   "property": "C52",
   "status": "proved",
   "theorems": [
    "PyBBN.C52_radiation",
    "PyBBN.C52_fermion_boson",
    "PyBBN.C52_dust",
    "PyBBN.C52_intermediate",
    "PyBBN.C52_intermediate_massless",
    "PyBBN.C52_gibbs_radiation",
    "PyBBN.C52_gibbs_dust"
   ],
   "note": ""
  },
  {
   "property": "C53",
   "status": "proved",
   "theorems": [
    "PyBBN.C53_orderer",
    "PyBBN.C53_insertion_order",
    "PyBBN.C53_idempotent",
    "PyBBN.C53_two_portions",
    "PyBBN.C53_filter"
   ],
   "note": ""
  },
  {
   "property": "C54",
   "status": "proved",
   "theorems": [
    "PyBBN.C54_filter",
    "PyBBN.C54_nothing_named_left",
    "PyBBN.C54_default_keeps"
   ],
   "note": ""
  },
  {
   "property": "C55",
   "status": "proved",
   "theorems": [
    "PyBBN.C55_step",
    "PyBBN.C55_latched",
    "PyBBN.C55_criterion",
    "PyBBN.C55_noticed",
    "PyBBN.C55_run",
    "PyBBN.C55_fraction_bounds",
    "PyBBN.C55_as_written_raises",
    "PyBBN.C55_as_written_never"
   ],
   "note": "The theorems hold for any evaluation of the rates. As written the evaluation raises TypeError (C55_as_written_raises): the monitor can then never produce an estimate (C55_as_written_never)."
  },
  {
   "property": "C56",
   "status": "proved",
   "theorems": [
    "PyBBN.C56_fermi_bounds",
    "PyBBN.C56_fermi_monotone",
    "PyBBN.C56_fermi_symmetric",
    "PyBBN.C56_bose",
    "PyBBN.C56_ratios",
    "PyBBN.C56_boltzmann_limit"
   ],
   "note": ""
  },
  {
   "property": "C57",
   "status": "proved",
   "theorems": [
    "PyBBN.C57_four",
    "PyBBN.C57_three",
    "PyBBN.C57_exactly_one"
   ],
   "note": ""
  },
  {
   "property": "C58",
   "status": "proved",
   "theorems": [
    "PyBBN.C58_always_raises"
   ],
   "note": ""
  },
  {
   "property": "C59",
   "status": "proved",
   "theorems": [
    "PyBBN.C59_four_raises",
    "PyBBN.C59_four_creation",
    "PyBBN.C59_three_works",
    "PyBBN.C59_three_values",
    "PyBBN.C59_fast_values",
    "PyBBN.C59_fast_shape",
    "PyBBN.C59_scaling_total"
   ],
   "note": ""
  },
  {
   "property": "C60",
   "status": "proved",
   "theorems": [
    "PyBBN.C60_registered_iff",
    "PyBBN.C60_no_accumulation"
   ],
   "note": ""
  },
  {
   "property": "C61",
   "status": "proved",
   "theorems": [
    "PyBBN.C61_chain",
    "PyBBN.C61_tables",
    "PyBBN.C61_units",
    "PyBBN.C61_constants",
    "PyBBN.C61_creation",
    "PyBBN.C61_evolve",
    "PyBBN.C61_densities",
    "PyBBN.C61_terms",
    "PyBBN.C61_plasma",
    "PyBBN.C61_consts"
   ],
   "note": ""
  },
  {
   "property": "C62",
   "status": "proved",
   "theorems": [
    "PyBBN.C62_four",
    "PyBBN.C62_three",
    "PyBBN.C62_values",
    "PyBBN.C62_creation"
   ],
   "note": ""
  },
  {
   "property": "C63",
   "status": "proved",
   "theorems": [
    "PyBBN.C63_average",
    "PyBBN.C63_nonneg",
    "PyBBN.C63_Db_nonneg",
    "PyBBN.C63_support"
   ],
   "note": ""
  },
  {
   "property": "C64",
   "status": "proved",
   "theorems": [
    "PyBBN.C64_decay",
    "PyBBN.C64_decay_real",
    "PyBBN.C64_scattering",
    "PyBBN.C64_creation",
    "PyBBN.C64_creation_massless"
   ],
   "note": ""
  },
  {
   "property": "C65",
   "status": "proved",
   "theorems": [
    "PyBBN.C65_decay",
    "PyBBN.C65_creation",
    "PyBBN.C65_creation_massless",
    "PyBBN.C65_rest"
   ],
   "note": ""
  },
  {
   "property": "C66",
   "status": "proved",
   "theorems": [
    "PyBBN.C66_three_strict",
    "PyBBN.C66_three",
    "PyBBN.C66_three_sharp",
    "PyBBN.C66_four",
    "PyBBN.C66_zero_is_forbidden"
   ],
   "note": ""
  },
  {
   "property": "C67",
   "status": "proved",
   "theorems": [
    "PyBBN.C67_heaviest_below",
    "PyBBN.C67_wraps"
   ],
   "note": ""
  },
  {
   "property": "C68",
   "status": "proved",
   "theorems": [
    "PyBBN.C68_dTdt",
    "PyBBN.C68_row",
    "PyBBN.C68_columns"
   ],
   "note": ""
  },
  {
   "property": "C69",
   "status": "proved",
   "theorems": [
    "PyBBN.C69_balance",
    "PyBBN.C69_log",
    "PyBBN.C69_linear_equilibrium",
    "PyBBN.C69_code_energy"
   ],
   "note": ""
  },
  {
   "property": "C70",
   "status": "partial",
   "theorems": [
    "PyBBN.C70_linear_mode",
    "PyBBN.C70_violated",
    "PyBBN.C70_dimension"
   ],
   "note": "False in the code in linear mode with non-equilibrium species: C70_linear_mode gives the exact condition, C70_violated a physical state where conservation fails."
  },
  {
   "property": "C71",
   "status": "proved",
   "theorems": [
    "PyBBN.C71_terms",
    "PyBBN.C71_run"
   ],
   "note": ""
  },
  {
   "property": "C72",
   "status": "proved",
   "theorems": [
    "PyBBN.C72_branches",
    "PyBBN.C72_laguerre"
   ],
   "note": ""
  },
  {
   "property": "C73",
   "status": "proved",
   "theorems": [
    "PyBBN.C73_entropy",
    "PyBBN.C73_equilibrium",
    "PyBBN.C73_pressure",
    "PyBBN.C73_physical",
    "PyBBN.C73_dilution"
   ],
   "note": ""
  },
  {
   "property": "C74",
   "status": "proved",
   "theorems": [
    "PyBBN.C74_H_theorem",
    "PyBBN.C74_zero_iff"
   ],
   "note": ""
  },
  {
   "property": "C75",
   "status": "proved",
   "theorems": [
    "PyBBN.C75_energy",
    "PyBBN.C75_number"
   ],
   "note": ""
  },
  {
   "property": "C76",
   "status": "partial",
   "theorems": [
    "PyBBN.C76_light",
    "PyBBN.C76_force",
    "PyBBN.C76_two_pi_partial"
   ],
   "note": "False in the code: C76_light and C76_force give the size of the discrepancy; C76_two_pi_partial shows that only the metre is at fault."
  },
  {
   "property": "C77",
   "status": "proved",
   "theorems": [
    "PyBBN.C77_table"
   ],
   "note": ""
  },
  {
   "property": "C78",
   "status": "proved",
   "theorems": [
    "PyBBN.C78_density_lags",
    "PyBBN.C78_radiation_excess",
    "PyBBN.C78_neff"
   ],
   "note": ""
  },
  {
   "property": "C79",
   "status": "proved",
   "theorems": [
    "PyBBN.C79_rho_given_raises",
    "PyBBN.C79_rho_absent_starts"
   ],
   "note": ""
  },
  {
   "property": "C80",
   "status": "partial",
   "theorems": [
    "PyBBN.C80_normal_partial",
    "PyBBN.C80_inverted_below_partial",
    "PyBBN.C80_inverted_swaps",
    "PyBBN.C80_inverted_wrong",
    "PyBBN.C80_suppression"
   ],
   "note": "False in the code for the inverted hierarchy beyond the resonance: C80_inverted_swaps shows that the table used is then the correct one with electron and tau exchanged, C80_inverted_wrong that this is a different table. Proved for the normal hierarchy and below the resonance."
  },
  {
   "property": "C81",
   "status": "proved",
   "theorems": [
    "PyBBN.C81_set_params",
    "PyBBN.C81_nonthermal_registers"
   ],
   "note": ""
  },
  {
   "property": "C82",
   "status": "proved",
   "theorems": [
    "PyBBN.C82_decayed",
    "PyBBN.C82_exponential",
    "PyBBN.C82_decoupling_time",
    "PyBBN.C82_never_thermalised"
   ],
   "note": ""
  },
  {
   "property": "C83",
   "status": "proved",
   "theorems": [
    "PyBBN.C83_equilibrium",
    "PyBBN.C83_frozen_thermal"
   ],
   "note": ""
  },
  {
   "property": "C84",
   "status": "proved",
   "theorems": [
    "PyBBN.C84_kinds",
    "PyBBN.C84_derivative",
    "PyBBN.C84_vacuum_decay",
    "PyBBN.C84_vacuum_creation"
   ],
   "note": ""
  },
  {
   "property": "C85",
   "status": "partial",
   "theorems": [
    "PyBBN.C85_integrand_partial",
    "PyBBN.C85_rest_partial",
    "PyBBN.C85_constant",
    "PyBBN.C85_constant_wrong"
   ],
   "note": "Proved for matrix elements built from scalar products (K = 0). False for constant matrix elements: C85_constant gives what the code computes, C85_constant_wrong shows that it differs from the average over p0 E0."
  },
  {
   "property": "C86",
   "status": "proved",
   "theorems": [
    "PyBBN.C86_loop",
    "PyBBN.C86_rate"
   ],
   "note": ""
  },
  {
   "property": "C87",
   "status": "proved",
   "theorems": [
    "PyBBN.C87_four",
    "PyBBN.C87_three",
    "PyBBN.C87_conservation"
   ],
   "note": ""
  },
  {
   "property": "C88",
   "status": "proved",
   "theorems": [
    "PyBBN.C88_unit_free",
    "PyBBN.C88_physical"
   ],
   "note": ""
  },
  {
   "property": "C89",
   "status": "proved",
   "theorems": [
    "PyBBN.C89_rate"
   ],
   "note": ""
  },
  {
   "property": "C90",
   "status": "proved",
   "theorems": [
    "PyBBN.C90_sums",
    "PyBBN.C90_massless_rest",
    "PyBBN.C90_shape_three",
    "PyBBN.C90_shape_four",
    "PyBBN.C90_term"
   ],
   "note": ""
  },
  {
   "property": "C91",
   "status": "proved",
   "theorems": [
    "PyBBN.C91_state",
    "PyBBN.C91_snapshot",
    "PyBBN.C91_order_matters"
   ],
   "note": ""
  },
  {
   "property": "C92",
   "status": "proved",
   "theorems": [
    "PyBBN.C92_step",
    "PyBBN.C92_run",
    "PyBBN.C92_irreversible",
    "PyBBN.C92_decayed_stays_empty"
   ],
   "note": ""
  },
  {
   "property": "C93",
   "status": "proved",
   "theorems": [
    "PyBBN.C93_totals",
    "PyBBN.C93_additive",
    "PyBBN.C93_conservation",
    "PyBBN.C93_spectra",
    "PyBBN.C93_integrate"
   ],
   "note": ""
  },
  {
   "property": "C94",
   "status": "proved",
   "theorems": [
    "PyBBN.C94_interpolated",
    "PyBBN.C94_resolution",
    "PyBBN.C94_single_node",
    "PyBBN.C94_coarse",
    "PyBBN.C94_integrate"
   ],
   "note": ""
  },
  {
   "property": "C95",
   "status": "proved",
   "theorems": [
    "PyBBN.C95_resolution_neutrino",
    "PyBBN.C95_resolution_meson",
    "PyBBN.C95_resolution_lepton",
    "PyBBN.C95_neutrino",
    "PyBBN.C95_meson",
    "PyBBN.C95_lepton",
    "PyBBN.C95_HNL",
    "PyBBN.C95_tiny_mass"
   ],
   "note": ""
  },
  {
   "property": "C96",
   "status": "partial",
   "theorems": [
    "PyBBN.C96_scattering",
    "PyBBN.C96_scattering_iff",
    "PyBBN.C96_decay_iff",
    "PyBBN.C96_decay_partial",
    "PyBBN.C96_HNL_hot",
    "PyBBN.C96_two_body"
   ],
   "note": "False in the code for the decay of the heavy neutrino above its mass (C96_HNL_hot); C96_decay_iff gives the exact decisions, C96_decay_partial the cases where they agree. Proved for scatterings and two-body decays."
  },
  {
   "property": "C97",
   "status": "partial",
   "theorems": [
    "PyBBN.C97_fresh_partial",
    "PyBBN.C97_inherited",
    "PyBBN.C97_depends_on_past",
    "PyBBN.C97_heavy_uncut",
    "PyBBN.C97_decay_cut_loses"
   ],
   "note": "False in the code until the first integral of the heavy neutrino: C97_inherited, C97_depends_on_past. C97_fresh_partial is the positive part; C97_decay_cut_loses shows that the cut itself is too low."
  },
  {
   "property": "C98",
   "status": "partial",
   "theorems": [
    "PyBBN.C98_reactions",
    "PyBBN.C98_neutrino",
    "PyBBN.C98_lepton",
    "PyBBN.C98_mesons_partial",
    "PyBBN.C98_wrong_flag",
    "PyBBN.C98_wrong_flag_reactions",
    "PyBBN.C98_wrong_flag_reached",
    "PyBBN.C98_baryons",
    "PyBBN.C98_sterile_leptons",
    "PyBBN.C98_sterile_quarks",
    "PyBBN.C98_sterile_mesons",
    "PyBBN.C98_templates_refuted",
    "PyBBN.C98_baryons_refuted"
   ],
   "note": "False for four declarations with a wrong flag (C98_wrong_flag, C98_wrong_flag_reactions, C98_templates_refuted) and for neutron decay with the shipped proton (C98_baryons_refuted). Proved for all others."
  },
  {
   "property": "C99",
   "status": "partial",
   "theorems": [
    "PyBBN.C99_only",
    "PyBBN.C99_four",
    "PyBBN.C99_decay",
    "PyBBN.C99_two_two",
    "PyBBN.C99_neutrino_complete",
    "PyBBN.C99_pion_complete",
    "PyBBN.C99_lepton_complete",
    "PyBBN.C99_sterile_complete",
    "PyBBN.C99_sterile_meson_complete",
    "PyBBN.C99_quarks_refuted",
    "PyBBN.C99_leptons_refuted",
    "PyBBN.C99_pions_refuted"
   ],
   "note": "False for quark channels of the heavy neutrino (C99_quarks_refuted) and for leptons and charged pions from heavier mesons (C99_leptons_refuted, C99_pions_refuted). Proved for the others; C99_only, C99_four, C99_decay give the exact set of owners."
  },
  {
   "property": "C100",
   "status": "partial",
   "theorems": [
    "PyBBN.C100_declared",
    "PyBBN.C100_closed",
    "PyBBN.C100_muons",
    "PyBBN.C100_once",
    "PyBBN.C100_once_refuted",
    "PyBBN.C100_names"
   ],
   "note": "Counting once is false when a primary meson follows one of its ancestors (C100_once_refuted); C100_declared gives the exact multiplicity, C100_once the cases without duplicates."
  },
  {
   "property": "C101",
   "status": "partial",
   "theorems": [
    "PyBBN.C101_taken_from_declarations",
    "PyBBN.C101_strength",
    "PyBBN.C101_charged_pion",
    "PyBBN.C101_neutral_pion",
    "PyBBN.C101_neutral_scalar",
    "PyBBN.C101_neutral_vector",
    "PyBBN.C101_charged_scalar",
    "PyBBN.C101_charged_vector",
    "PyBBN.C101_charged_scalar_declared",
    "PyBBN.C101_charged_vector_refuted",
    "PyBBN.C101_three_body",
    "PyBBN.C101_widths_add",
    "PyBBN.C101_muon",
    "PyBBN.C101_three_neutrinos",
    "PyBBN.C101_lepton_pair",
    "PyBBN.C101_two_leptons"
   ],
   "note": "False for charged vector mesons (C101_charged_vector_refuted: the angle of the last neutrino). Three-body widths here are those of massless products; for products with mass C101_strength gives the coefficient and C114 the width."
  },
  {
   "property": "C102",
   "status": "proved",
   "theorems": [
    "PyBBN.C102_totals",
    "PyBBN.C102_additive",
    "PyBBN.C102_conservation",
    "PyBBN.C102_spectra",
    "PyBBN.C102_integrate"
   ],
   "note": ""
  },
  {
   "property": "C103",
   "status": "partial",
   "theorems": [
    "PyBBN.C103_scattering_partial",
    "PyBBN.C103_same_flavour_partial",
    "PyBBN.C103_NC_heavy_partial",
    "PyBBN.C103_NC_light_partial",
    "PyBBN.C103_CC_partial",
    "PyBBN.C103_one_declaration"
   ],
   "note": "Proved for annihilation and decay in the scattering, muon/tau neutral and charged current channels, and for electron scattering. False otherwise: scattering on neutrinos (C103_scattering_partial, C103_same_flavour_partial), scattering on muons and taus (C103_NC_heavy_partial), annihilation and decay into electrons (C103_NC_light_partial); one charged-current scattering is absent for all (C103_CC_partial). The exact weights are proved."
  },
  {
   "property": "C104",
   "status": "proved",
   "theorems": [
    "PyBBN.C104_totals",
    "PyBBN.C104_conservation",
    "PyBBN.C104_confined",
    "PyBBN.C104_spectra",
    "PyBBN.C104_integrate"
   ],
   "note": ""
  },
  {
   "property": "C105",
   "status": "proved",
   "theorems": [
    "PyBBN.C105_three_body",
    "PyBBN.C105_two_body",
    "PyBBN.C105_three_body_spectra",
    "PyBBN.C105_two_body_spectra",
    "PyBBN.C105_integrate_three_body",
    "PyBBN.C105_integrate_two_body"
   ],
   "note": ""
  },
  {
   "property": "C106",
   "status": "proved",
   "theorems": [
    "PyBBN.C106_neutrinos",
    "PyBBN.C106_leptons",
    "PyBBN.C106_balanced"
   ],
   "note": ""
  },
  {
   "property": "C107",
   "status": "proved",
   "theorems": [
    "PyBBN.C107_only_scatterings",
    "PyBBN.C107_totals",
    "PyBBN.C107_spectrum_ends"
   ],
   "note": ""
  },
  {
   "property": "C108",
   "status": "proved",
   "theorems": [
    "PyBBN.C108_neutrinos",
    "PyBBN.C108_charged",
    "PyBBN.C108_sterile_NC",
    "PyBBN.C108_sterile_CC",
    "PyBBN.C108_sterile_neutrinos",
    "PyBBN.C108_quarks_NC",
    "PyBBN.C108_quarks_CC",
    "PyBBN.C108_charged_leptons",
    "PyBBN.C108_annihilation",
    "PyBBN.C108_annihilation_refuted",
    "PyBBN.C108_baryons_refuted",
    "PyBBN.C108_crossings",
    "PyBBN.C108_declared",
    "PyBBN.C108_couplings",
    "PyBBN.C108_no_effect",
    "PyBBN.C108_spins",
    "PyBBN.C108_quark_templates",
    "PyBBN.C108_events",
    "PyBBN.C108_two_flavours",
    "PyBBN.C108_one_flavour"
   ],
   "note": ""
  },
  {
   "property": "C109",
   "status": "proved",
   "theorems": [
    "PyBBN.C109_configurations",
    "PyBBN.C109_directions",
    "PyBBN.C109_nonneg",
    "PyBBN.C109_entropy",
    "PyBBN.C109_pauli"
   ],
   "note": ""
  },
  {
   "property": "C110",
   "status": "partial",
   "theorems": [
    "PyBBN.C110_kept",
    "PyBBN.C110_declared",
    "PyBBN.C110_closed",
    "PyBBN.C110_leptons",
    "PyBBN.C110_twice",
    "PyBBN.C110_once_partial",
    "PyBBN.C110_meson_decay",
    "PyBBN.C110_lepton_decay",
    "PyBBN.C110_only",
    "PyBBN.C110_kinds",
    "PyBBN.C110_raises"
   ],
   "note": "Proved: what is declared and how often, closure under decay for mesons, muons and taus, exactly the decays and inverse decays kept with their kinds, presence of the decay integrals. False in the code: with taus and pions but no muons coming out every lepton interaction is declared twice (C110_twice); the four-particle integrals kept have kinds with which integrate raises on real grids (C110_raises); mesons listed after their ancestors are declared twice (C100)."
  },
  {
   "property": "C111",
   "status": "proved",
   "theorems": [
    "PyBBN.C111_decays",
    "PyBBN.C111_totals",
    "PyBBN.C111_decay_member"
   ],
   "note": ""
  },
  {
   "property": "C112",
   "status": "proved",
   "theorems": [
    "PyBBN.C112_elastic",
    "PyBBN.C112_dropped",
    "PyBBN.C112_kept"
   ],
   "note": ""
  },
  {
   "property": "C113",
   "status": "proved",
   "theorems": [
    "PyBBN.C113_relaxation",
    "PyBBN.C113_stationary",
    "PyBBN.C113_implicit_step",
    "PyBBN.C113_three",
    "PyBBN.C113_returns",
    "PyBBN.C113_three_returns"
   ],
   "note": ""
  },
  {
   "property": "C114",
   "status": "proved",
   "theorems": [
    "PyBBN.C114_moving",
    "PyBBN.C114_one_mass",
    "PyBBN.C114_one_mass_rate",
    "PyBBN.C114_muon",
    "PyBBN.C114_rest"
   ],
   "note": ""
  },
  {
   "property": "C115",
   "status": "proved",
   "theorems": [
    "PyBBN.C115_nothing_stale",
    "PyBBN.C115_four_particle",
    "PyBBN.C115_second_call"
   ],
   "note": ""
  },
  {
   "property": "C116",
   "status": "proved",
   "theorems": [
    "PyBBN.C116_entropy",
    "PyBBN.C116_heating",
    "PyBBN.C116_annihilation",
    "PyBBN.C116_finite_start",
    "PyBBN.C116_test_start",
    "PyBBN.C116_exists"
   ],
   "note": ""
  },
  {
   "property": "C117",
   "status": "proved",
   "theorems": [
    "PyBBN.C117_convergence",
    "PyBBN.C117_completes",
    "PyBBN.C117_plasma",
    "PyBBN.C117_heats",
    "PyBBN.C117_first_order"
   ],
   "note": ""
  },
  {
   "property": "C118",
   "status": "proved",
   "theorems": [
    "PyBBN.C118_neff"
   ],
   "note": ""
  },
  {
   "property": "C119",
   "status": "proved",
   "theorems": [
    "PyBBN.C119_refines",
    "PyBBN.C119_interrupted",
    "PyBBN.C119_units"
   ],
   "note": ""
  },
  {
   "property": "C120",
   "status": "partial",
   "theorems": [
    "PyBBN.C120_limit",
    "PyBBN.C120_total",
    "PyBBN.C120_tendsto",
    "PyBBN.C120_not_solution",
    "PyBBN.C120_no_integrals_partial",
    "PyBBN.C120_universe"
   ],
   "note": "False in the code with registered integrals: C120_limit and C120_tendsto give the limit e^l f0, C120_not_solution shows that it is not the solution. Proved without registered integrals."
  },
  {
   "property": "C121",
   "status": "partial",
   "theorems": [
    "PyBBN.C121_resume_partial",
    "PyBBN.C121_stop_partial",
    "PyBBN.C121_duplicate",
    "PyBBN.C121_ab_step",
    "PyBBN.C121_ab_refuted"
   ],
   "note": "Proved for explicit steps with init_time=False (C121_resume_partial, C121_stop_partial). False in the code otherwise: C121_ab_step and C121_ab_refuted for the multistep mode, C121_duplicate for the table and the clock."
  },
  {
   "property": "C122",
   "status": "proved",
   "theorems": [
    "PyBBN.C122_scattering",
    "PyBBN.C122_decay_three",
    "PyBBN.C122_decay_two",
    "PyBBN.C122_grid"
   ],
   "note": ""
  },
  {
   "property": "C123",
   "status": "proved",
   "theorems": [
    "PyBBN.C123_odds",
    "PyBBN.C123_scattering",
    "PyBBN.C123_decay",
    "PyBBN.C123_inverse",
    "PyBBN.C123_decoupling",
    "PyBBN.C123_decay_two",
    "PyBBN.C123_inverse_two"
   ],
   "note": ""
  },
  {
   "property": "C124",
   "status": "proved",
   "theorems": [
    "PyBBN.C124_closed_form",
    "PyBBN.C124_normalised",
    "PyBBN.KEnv.C124_blocking",
    "PyBBN.KEnv.C124_vacuum",
    "PyBBN.KEnv.C124_late",
    "PyBBN.KEnv.C124_tendsto"
   ],
   "note": ""
  },
  {
   "property": "C125",
   "status": "partial",
   "theorems": [
    "PyBBN.C125_dust",
    "PyBBN.C125_radiation",
    "PyBBN.C125_intermediate",
    "PyBBN.C125_jump"
   ],
   "note": "Proved: dust and radiation agree with the integrals over all momenta, the intermediate regime up to the momenta above 20 T. False in the code: for heavy species these carry most of the density, which therefore jumps by a factor of 14 at the default switch to dust (C125_jump)."
  },
  {
   "property": "C126",
   "status": "proved",
   "theorems": [
    "PyBBN.C126_decoupling",
    "PyBBN.C126_massless",
    "PyBBN.C126_massive",
    "PyBBN.C126_free_streaming"
   ],
   "note": ""
  },
  {
   "property": "C127",
   "status": "partial",
   "theorems": [
    "PyBBN.C127_generated",
    "PyBBN.C127_merged",
    "PyBBN.C127_shares",
    "PyBBN.C127_returns",
    "PyBBN.C127_conserved_partial",
    "PyBBN.C127_library",
    "PyBBN.C127_majorana_refuted",
    "PyBBN.C127_neutral",
    "PyBBN.C127_charged_refuted",
    "PyBBN.C127_pair",
    "PyBBN.C127_identical_refuted",
    "PyBBN.C127_templates"
   ],
   "note": "Proved for all declarations that give the three species equal shares (C127_conserved_partial), which include those of charged pions, of the Dirac sterile neutrino and of neutral mesons (C127_templates, C127_pair). False in the code for the Majorana sterile neutrino, for charged kaons and rho mesons, and for two identical products (C127_majorana_refuted, C127_charged_refuted, C127_identical_refuted). The library gives mesons fast_decay=True, so that their own integral leaves the usual path."
  },
  {
   "property": "C128",
   "status": "partial",
   "theorems": [
    "PyBBN.C128_table",
    "PyBBN.C128_no_file",
    "PyBBN.C128_folder_refuted",
    "PyBBN.C128_again_refuted",
    "PyBBN.C128_off",
    "PyBBN.C128_species",
    "PyBBN.C128_species_refuted",
    "PyBBN.C128_temperature"
   ],
   "note": "Proved for a universe with an output folder whose init_kawano was the last one called and which has not exported yet (C128_table, C128_species). False in the code without a folder, in a second call after an export, and for several universes in one process (C128_folder_refuted, C128_again_refuted, C128_species_refuted)."
  },
  {
   "property": "C129",
   "status": "partial",
   "theorems": [
    "PyBBN.C129_jacobi",
    "PyBBN.C129_jacobi01",
    "PyBBN.C129_one_refuted",
    "PyBBN.C129_rule",
    "PyBBN.C129_gauss",
    "PyBBN.C129_radau",
    "PyBBN.C129_lobatto",
    "PyBBN.C129_nodes"
   ],
   "note": "Proved for N >= 2 (C129_jacobi, C129_jacobi01, C129_rule) and for any recursion coefficients (C129_gauss, C129_nodes, C129_radau, C129_lobatto; the last for a non-negative last coefficient). False in the code for N = 1 (C129_one_refuted); radau and lobatto change their arguments."
  },
  {
   "property": "C130",
   "status": "proved",
   "theorems": [
    "PyBBN.C130_unit_free",
    "PyBBN.C130_increasing",
    "PyBBN.C130_physical"
   ],
   "note": ""
  },
  {
   "property": "C131",
   "status": "proved",
   "theorems": [
    "PyBBN.C131_spectra",
    "PyBBN.C131_loop",
    "PyBBN.C131_rest"
   ],
   "note": ""
  },
  {
   "property": "C132",
   "status": "proved",
   "theorems": [
    "PyBBN.C132_continuous",
    "PyBBN.C132_zero_jump"
   ],
   "note": ""
  },
  {
   "property": "C133",
   "status": "partial",
   "theorems": [
    "PyBBN.C133_inside_partial",
    "PyBBN.C133_beyond",
    "PyBBN.C133_array_partial",
    "PyBBN.C133_jump",
    "PyBBN.C133_spectra_partial"
   ],
   "note": "Proved if the momentum of the parent of a product at rest is below the end of the grid (C133_inside_partial, C133_array_partial, C133_spectra_partial). False in the code if it is beyond: slow products then get 0 but the entry at rest counts that parent (C133_beyond, C133_jump)."
  },
  {
   "property": "C134",
   "status": "proved",
   "theorems": [
    "PyBBN.C134_chebyshev",
    "PyBBN.C134_rule",
    "PyBBN.C134_count_refuted"
   ],
   "note": ""
  },
  {
   "property": "C135",
   "status": "proved",
   "theorems": [
    "PyBBN.C135_sampled",
    "PyBBN.C135_trapezium",
    "PyBBN.C135_adaptive",
    "PyBBN.C135_adaptive_affine",
    "PyBBN.C135_nonadaptive",
    "PyBBN.C135_unassigned_refuted"
   ],
   "note": ""
  },
  {
   "property": "C136",
   "status": "proved",
   "theorems": [
    "PyBBN.C136_reactions",
    "PyBBN.C136_mesons",
    "PyBBN.C136_leptons",
    "PyBBN.C136_sterile_mesons",
    "PyBBN.C136_sterile_leptons",
    "PyBBN.C136_quarks",
    "PyBBN.C136_sterile_loops"
   ],
   "note": ""
  },
  {
   "property": "C137",
   "status": "partial",
   "theorems": [
    "PyBBN.C137_hadrons_partial",
    "PyBBN.C137_leptons_partial",
    "PyBBN.C137_leptons_refuted"
   ],
   "note": "proved for mesons; false in the code for leptons (C137_leptons_refuted)"
  }
 ]
}