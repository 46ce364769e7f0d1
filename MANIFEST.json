{
 "claims": [
  {
   "property": "C01",
   "status": "proved",
   "theorems": [
    "Phenum.C01_binomial_counts_subsets",
    "Phenum.C01_binomial_out_of_range",
    "Phenum.C01_divisions_exact"
   ],
   "note": ""
  },
  {
   "property": "C02",
   "status": "proved",
   "theorems": [
    "Phenum.C02_factorial",
    "Phenum.C02_multinomial",
    "Phenum.C02_multinomial_twenty",
    "Phenum.C02_overflow",
    "Phenum.C02_multinomial_empty"
   ],
   "note": ""
  },
  {
   "property": "C03",
   "status": "proved",
   "theorems": [
    "Phenum.C03_decode_encode",
    "Phenum.C03_encode_decode",
    "Phenum.C03_no_one"
   ],
   "note": ""
  },
  {
   "property": "C04",
   "status": "proved",
   "theorems": [
    "Phenum.C04_decode",
    "Phenum.C04_bijection"
   ],
   "note": ""
  },
  {
   "property": "C05",
   "status": "proved",
   "theorems": [
    "Phenum.C05_product",
    "Phenum.C05_product_exact"
   ],
   "note": ""
  },
  {
   "property": "C06",
   "status": "proved",
   "theorems": [
    "Phenum.C06_one_per_orbit"
   ],
   "note": ""
  },
  {
   "property": "C07",
   "status": "proved",
   "theorems": [
    "Phenum.C07_terminates"
   ],
   "note": ""
  },
  {
   "property": "C08",
   "status": "proved",
   "theorems": [
    "Phenum.C08_sound",
    "Phenum.C08_core",
    "Phenum.C08_three_species",
    "Phenum.C08_any_species",
    "Phenum.C08_counterexample"
   ],
   "note": ""
  },
  {
   "property": "C09",
   "status": "proved",
   "theorems": [
    "Phenum.C09_subset_arrows_super",
    "Phenum.C09_subset_colours",
    "Phenum.C09_subset_arrows"
   ],
   "note": ""
  },
  {
   "property": "C10",
   "status": "proved",
   "theorems": [
    "Phenum.C10_decode_encode",
    "Phenum.C10_encode_decode",
    "Phenum.C10_largest"
   ],
   "note": ""
  },
  {
   "property": "C11",
   "status": "proved",
   "theorems": [
    "Phenum.C11_arrows"
   ],
   "note": ""
  },
  {
   "property": "C12",
   "status": "proved",
   "theorems": [
    "Phenum.C12_one_per_orbit"
   ],
   "note": ""
  },
  {
   "property": "C13",
   "status": "proved",
   "theorems": [
    "Phenum.C13_polya_counts_orbits"
   ],
   "note": ""
  },
  {
   "property": "C14",
   "status": "proved",
   "theorems": [
    "Phenum.C14_polya_arrows_number",
    "Phenum.C14_polya_arrows_flags"
   ],
   "note": ""
  },
  {
   "property": "C15",
   "status": "proved",
   "theorems": [
    "Phenum.C15_count_plain",
    "Phenum.C15_count_arrows"
   ],
   "note": ""
  },
  {
   "property": "C16",
   "status": "proved",
   "theorems": [
    "Phenum.C16_rejects",
    "Phenum.C16_index_base"
   ],
   "note": ""
  },
  {
   "property": "C17",
   "status": "proved",
   "theorems": [
    "Phenum.C17_cycle_dictionary"
   ],
   "note": ""
  },
  {
   "property": "C18",
   "status": "proved",
   "theorems": [
    "Phenum.C18_product_coefficient",
    "Phenum.C18_degree_needed"
   ],
   "note": ""
  },
  {
   "property": "C19",
   "status": "proved",
   "theorems": [
    "Phenum.C19_number",
    "Phenum.C19_all_hnfs"
   ],
   "note": ""
  },
  {
   "property": "C20",
   "status": "proved",
   "theorems": [
    "Phenum.C20_number",
    "Phenum.C20_every_superlattice_once"
   ],
   "note": ""
  },
  {
   "property": "C21",
   "status": "proved",
   "theorems": [
    "Phenum.C21_equiv_exact",
    "Phenum.C21_equiv_tolerance",
    "Phenum.C21_equivalence_relation"
   ],
   "note": ""
  },
  {
   "property": "C22",
   "status": "proved",
   "theorems": [
    "Phenum.C22_unique_hnfs"
   ],
   "note": ""
  },
  {
   "property": "C23",
   "status": "proved",
   "theorems": [
    "Phenum.C23_smith_correct"
   ],
   "note": ""
  },
  {
   "property": "C24",
   "status": "proved",
   "theorems": [
    "Phenum.C24_smith_total",
    "Phenum.C24_smith_succeeds",
    "Phenum.C24_smith_rejects"
   ],
   "note": ""
  },
  {
   "property": "C25",
   "status": "proved",
   "theorems": [
    "Phenum.C25_concs_complete"
   ],
   "note": ""
  },
  {
   "property": "C26",
   "status": "proved",
   "theorems": [
    "Phenum.C26_restricted_concs",
    "Phenum.C26_denominators_matter"
   ],
   "note": ""
  },
  {
   "property": "C27",
   "status": "proved",
   "theorems": [
    "Phenum.C27_bring_into_cell",
    "Phenum.C27_canonical",
    "Phenum.C27_cartesian2direct"
   ],
   "note": ""
  },
  {
   "property": "C28",
   "status": "proved",
   "theorems": [
    "Phenum.C28_map_real_space",
    "Phenum.C28_returns_iff",
    "Phenum.C28_returns",
    "Phenum.C28_missed_point",
    "Phenum.C28_spins"
   ],
   "note": ""
  },
  {
   "property": "C29",
   "status": "proved",
   "theorems": [
    "Phenum.C29_member_list",
    "Phenum.C29_translations"
   ],
   "note": ""
  },
  {
   "property": "C30",
   "status": "proved",
   "theorems": [
    "Phenum.C30_enum_in_round_trip",
    "Phenum.C30_ragged"
   ],
   "note": ""
  },
  {
   "property": "C31",
   "status": "proved",
   "theorems": [
    "Phenum.C31_enum_out_round_trip",
    "Phenum.C31_fields_merge"
   ],
   "note": ""
  },
  {
   "property": "C32",
   "status": "proved",
   "theorems": [
    "Phenum.C32_labels",
    "Phenum.C32_labels_and_arrows",
    "Phenum.C32_injective",
    "Phenum.C32_readable",
    "Phenum.C32_eleven_species"
   ],
   "note": ""
  },
  {
   "property": "C33",
   "status": "proved",
   "theorems": [
    "Phenum.C33_full_distribution",
    "Phenum.C33_written_table",
    "Phenum.C33_restricted_concs_by_shape"
   ],
   "note": ""
  },
  {
   "property": "C34",
   "status": "proved",
   "theorems": [
    "Phenum.C34_ample",
    "Phenum.C34_bounds",
    "Phenum.C34_whole_shares",
    "Phenum.C34_overshoots",
    "Phenum.C34_falls_short",
    "Phenum.C34_exceeds_available"
   ],
   "note": ""
  },
  {
   "property": "C35",
   "status": "proved",
   "theorems": [
    "Phenum.C35_returned_structures",
    "Phenum.C35_terminates_iff",
    "Phenum.C35_runs_forever",
    "Phenum.C35_no_check",
    "Phenum.C35_arrows_one_labelling",
    "Phenum.C35_last_arrows_never",
    "Phenum.C35_counterexample"
   ],
   "note": ""
  },
  {
   "property": "C36",
   "status": "proved",
   "theorems": [
    "Phenum.C36_group",
    "Phenum.C36_group_degree_one",
    "Phenum.C36_pairs",
    "Phenum.C36_pairs_single",
    "Phenum.C36_pairs_leave_group",
    "Phenum.C36_a_group",
    "Phenum.C36_a_group_gen"
   ],
   "note": ""
  },
  {
   "property": "C37",
   "status": "proved",
   "theorems": [
    "Phenum.C37_not_displaced",
    "Phenum.C37_displaced",
    "Phenum.C37_wrong_directions",
    "Phenum.C37_wrong_site",
    "Phenum.C37_config_wrong",
    "Phenum.C37_config_directions"
   ],
   "note": ""
  },
  {
   "property": "C38",
   "status": "proved",
   "theorems": [
    "Phenum.C38_poscar",
    "Phenum.C38_config"
   ],
   "note": ""
  },
  {
   "property": "C39",
   "status": "proved",
   "theorems": [
    "Phenum.C39_cubic",
    "Phenum.C39_gauss_converges",
    "Phenum.C39_gauss",
    "Phenum.C39_reduce_third",
    "Phenum.C39_minkowski",
    "Phenum.C39_dependent",
    "Phenum.C39_gives_up",
    "Phenum.C39_only_limits"
   ],
   "note": ""
  },
  {
   "property": "C40",
   "status": "proved",
   "theorems": [
    "Phenum.C40_arrow_concs",
    "Phenum.C40_how_many_arrows",
    "Phenum.C40_decoration_usable",
    "Phenum.C40_no_arrows",
    "Phenum.C40_fractions_of_file"
   ],
   "note": ""
  },
  {
   "property": "C41",
   "status": "proved",
   "theorems": [
    "Phenum.C41_all",
    "Phenum.C41_single",
    "Phenum.C41_range",
    "Phenum.C41_refused",
    "Phenum.C41_switches_ignored",
    "Phenum.C41_mink_false"
   ],
   "note": ""
  },
  {
   "property": "C42",
   "status": "proved",
   "theorems": [
    "Phenum.C42_wrong_number",
    "Phenum.C42_default",
    "Phenum.C42_vegard",
    "Phenum.C42_unknown",
    "Phenum.C42_lead_missing"
   ],
   "note": ""
  },
  {
   "property": "C43",
   "status": "proved",
   "theorems": [
    "Phenum.C43_request_single",
    "Phenum.C43_request_single_random",
    "Phenum.C43_unbound",
    "Phenum.C43_arrow_sites_fixed",
    "Phenum.C43_arrows_missed",
    "Phenum.C43_request_super",
    "Phenum.C43_fewer",
    "Phenum.C43_request",
    "Phenum.C43_not_honoured",
    "Phenum.C43_request_arrows"
   ],
   "note": ""
  },
  {
   "property": "C44",
   "status": "proved",
   "theorems": [
    "Phenum.C44_fixing_operations"
   ],
   "note": ""
  },
  {
   "property": "C45",
   "status": "proved",
   "theorems": [
    "Phenum.C45_order",
    "Phenum.C45_point_group",
    "Phenum.C45_singular"
   ],
   "note": ""
  },
  {
   "property": "C46",
   "status": "proved",
   "theorems": [
    "Phenum.C46_generated_group"
   ],
   "note": ""
  },
  {
   "property": "C47",
   "status": "proved",
   "theorems": [
    "Phenum.C47_space_group",
    "Phenum.C47_rejects"
   ],
   "note": ""
  },
  {
   "property": "C48",
   "status": "proved",
   "theorems": [
    "Phenum.C48_sound",
    "Phenum.C48_one_per_orbit",
    "Phenum.C48_species_aperiodic",
    "Phenum.C48_counterexample"
   ],
   "note": ""
  },
  {
   "property": "C49",
   "status": "proved",
   "theorems": [
    "Phenum.C49_polya_out_round_trip"
   ],
   "note": ""
  },
  {
   "property": "C50",
   "status": "proved",
   "theorems": [
    "Phenum.C50_rows_are_the_structures",
    "Phenum.C50_rows_sorted",
    "Phenum.C50_row_numbers",
    "Phenum.C50_heading"
   ],
   "note": ""
  },
  {
   "property": "C51",
   "status": "proved",
   "theorems": [
    "Phenum.C51_poscar_is_structure",
    "Phenum.C51_lattice_read",
    "Phenum.C51_make_structures"
   ],
   "note": ""
  },
  {
   "property": "C52",
   "status": "proved",
   "theorems": [
    "Phenum.C52_no_overwriting",
    "Phenum.C52_name",
    "Phenum.C52_names_differ",
    "Phenum.C52_bad_patterns"
   ],
   "note": ""
  },
  {
   "property": "C53",
   "status": "proved",
   "theorems": [
    "Phenum.C53_cubic",
    "Phenum.C53_exits_one_atom",
    "Phenum.C53_order_two",
    "Phenum.C53_sym_group",
    "Phenum.C53_one_atom",
    "Phenum.C53_exits"
   ],
   "note": ""
  },
  {
   "property": "C54",
   "status": "proved",
   "theorems": [
    "Phenum.C54_degeneracies_sum",
    "Phenum.C54_one_atom",
    "Phenum.C54_remove_duplicates",
    "Phenum.C54_get_HNFs"
   ],
   "note": ""
  },
  {
   "property": "C55",
   "status": "proved",
   "theorems": [
    "Phenum.C55_surface_operations",
    "Phenum.C55_rejects",
    "Phenum.C55_form_not_checked",
    "Phenum.C55_surface_fails",
    "Phenum.C55_surface_fails_cubic"
   ],
   "note": ""
  },
  {
   "property": "C56",
   "status": "proved",
   "theorems": [
    "Phenum.C56_one_per_structure",
    "Phenum.C56_one_per_primitive_structure",
    "Phenum.C56_enumeration",
    "Phenum.C56_enumeration_arrows",
    "Phenum.C56_enumeration_primitive"
   ],
   "note": ""
  },
  {
   "property": "C57",
   "status": "proved",
   "theorems": [
    "Phenum.C57_polya_first",
    "Phenum.C57_distribution_first",
    "Phenum.C57_rerun",
    "Phenum.C57_input_only"
   ],
   "note": ""
  },
  {
   "property": "C58",
   "status": "proved",
   "theorems": [
    "Phenum.C58_every_structure_once",
    "Phenum.C58_small",
    "Phenum.C58_fcc_file",
    "Phenum.C58_all_structures",
    "Phenum.C58_ranges"
   ],
   "note": ""
  },
  {
   "property": "C59",
   "status": "proved",
   "theorems": [
    "Phenum.C59_comments",
    "Phenum.C59_blank_line",
    "Phenum.C59_round_trip",
    "Phenum.C59_double_blank"
   ],
   "note": ""
  },
  {
   "property": "C60",
   "status": "proved",
   "theorems": [
    "Phenum.C60_polya_and_enum",
    "Phenum.C60_not_saved",
    "Phenum.C60_empty_sizes",
    "Phenum.C60_saved_sizes",
    "Phenum.C60_stale_tables"
   ],
   "note": ""
  },
  {
   "property": "C61",
   "status": "proved",
   "theorems": [
    "Phenum.C61_nothing_else",
    "Phenum.C61_every_primitive_structure_once",
    "Phenum.C61_small",
    "Phenum.C61_all_crystals"
   ],
   "note": ""
  },
  {
   "property": "C62",
   "status": "proved",
   "theorems": [
    "Phenum.C62_one_poscar_per_crystal"
   ],
   "note": ""
  },
  {
   "property": "C63",
   "status": "proved",
   "theorems": [
    "Phenum.C63_cubic_poscars",
    "Phenum.C63_point_group",
    "Phenum.C63_space_group",
    "Phenum.C63_all_structures",
    "Phenum.C63_ranges",
    "Phenum.C63_all_crystals",
    "Phenum.C63_one_poscar",
    "Phenum.C63_decimals",
    "Phenum.C63_fcc_file",
    "Phenum.C63_too_close"
   ],
   "note": ""
  },
  {
   "property": "C64",
   "status": "proved",
   "theorems": [
    "Phenum.C64_edges",
    "Phenum.C64_figures",
    "Phenum.C64_cubic_drawable",
    "Phenum.C64_transposed",
    "Phenum.C64_one_atom_only",
    "Phenum.C64_needs_input",
    "Phenum.C64_names_distinct",
    "Phenum.C64_names_collide"
   ],
   "note": ""
  },
  {
   "property": "C65",
   "status": "proved",
   "theorems": [
    "Phenum.C65_shapes",
    "Phenum.C65_concs",
    "Phenum.C65_concs_of_three",
    "Phenum.C65_nothing_left"
   ],
   "note": ""
  },
  {
   "property": "C66",
   "status": "proved",
   "theorems": [
    "Phenum.C66_read_group"
   ],
   "note": ""
  },
  {
   "property": "C67",
   "status": "proved",
   "theorems": [
    "Phenum.C67_unmapped",
    "Phenum.C67_mapped",
    "Phenum.C67_permutation"
   ],
   "note": ""
  },
  {
   "property": "C68",
   "status": "proved",
   "theorems": [
    "Phenum.C68_polya_float",
    "Phenum.C68_polya_float_arrows",
    "Phenum.C68_polya_float_flags",
    "Phenum.C68_double",
    "Phenum.C68_limit"
   ],
   "note": ""
  },
  {
   "property": "C69",
   "status": "proved",
   "theorems": [
    "Phenum.C69_restricted_concs_float",
    "Phenum.C69_nearest",
    "Phenum.C69_double",
    "Phenum.C69_limit"
   ],
   "note": ""
  },
  {
   "property": "C70",
   "status": "proved",
   "theorems": [
    "Phenum.C70_cartesian2direct",
    "Phenum.C70_bring_into_cell",
    "Phenum.C70_does_not_end",
    "Phenum.C70_large_coordinate",
    "Phenum.C70_bring_exits"
   ],
   "note": ""
  },
  {
   "property": "C71",
   "status": "proved",
   "theorems": [
    "Phenum.C71_safe",
    "Phenum.C71_up_to_35",
    "Phenum.C71_map_real_space",
    "Phenum.C71_refused",
    "Phenum.C71_silent"
   ],
   "note": ""
  },
  {
   "property": "C72",
   "status": "proved",
   "theorems": [
    "Phenum.C72_arrow_count",
    "Phenum.C72_decimal",
    "Phenum.C72_one_short"
   ],
   "note": ""
  },
  {
   "property": "C73",
   "status": "proved",
   "theorems": [
    "Phenum.C73_point_group",
    "Phenum.C73_space_group",
    "Phenum.C73_get_HNFs_same",
    "Phenum.C73_get_HNFs",
    "Phenum.C73_get_sym_group_same",
    "Phenum.C73_get_sym_group",
    "Phenum.C73_shipped_HNFs",
    "Phenum.C73_shipped_sym_group",
    "Phenum.C73_hexagonal"
   ],
   "note": ""
  },
  {
   "property": "C74",
   "status": "proved",
   "theorems": [
    "Phenum.C74_same_files",
    "Phenum.C74_same_files_ranges",
    "Phenum.C74_all_structures",
    "Phenum.C74_all_crystals",
    "Phenum.C74_ranges",
    "Phenum.C74_decimals",
    "Phenum.C74_arrows_decimal",
    "Phenum.C74_fcc_file",
    "Phenum.C74_one_poscar"
   ],
   "note": ""
  },
  {
   "property": "C75",
   "status": "proved",
   "theorems": [
    "Phenum.C75_some_structures",
    "Phenum.C75_free",
    "Phenum.C75_ranges",
    "Phenum.C75_exact_number",
    "Phenum.C75_ample",
    "Phenum.C75_zero",
    "Phenum.C75_crash",
    "Phenum.C75_crash_cubic"
   ],
   "note": ""
  },
  {
   "property": "C76",
   "status": "proved",
   "theorems": [
    "Phenum.C76_all",
    "Phenum.C76_same",
    "Phenum.C76_whole_shares",
    "Phenum.C76_bounds",
    "Phenum.C76_whole_share_lost"
   ],
   "note": ""
  },
  {
   "property": "C77",
   "status": "proved",
   "theorems": [
    "Phenum.C77_free",
    "Phenum.C77_ranges",
    "Phenum.C77_total",
    "Phenum.C77_exact_number",
    "Phenum.C77_ample",
    "Phenum.C77_zero"
   ],
   "note": ""
  },
  {
   "property": "C78",
   "status": "proved",
   "theorems": [
    "Phenum.C78_arrows_off",
    "Phenum.C78_crystals_in_ranges",
    "Phenum.C78_shipped",
    "Phenum.C78_noise",
    "Phenum.C78_one_poscar",
    "Phenum.C78_one_poscar_noise"
   ],
   "note": ""
  },
  {
   "property": "C79",
   "status": "proved",
   "theorems": [
    "Phenum.C79_named_poscars",
    "Phenum.C79_named_free",
    "Phenum.C79_named_noise",
    "Phenum.C79_named_free_noise"
   ],
   "note": ""
  },
  {
   "property": "C80",
   "status": "proved",
   "theorems": [
    "Phenum.C80_heading_polya",
    "Phenum.C80_heading_enum",
    "Phenum.C80_heading_both",
    "Phenum.C80_heading_fresh",
    "Phenum.C80_table",
    "Phenum.C80_readable",
    "Phenum.C80_no_failure",
    "Phenum.C80_same_run",
    "Phenum.C80_shown",
    "Phenum.C80_free",
    "Phenum.C80_ranges",
    "Phenum.C80_adds_up"
   ],
   "note": "the table for every distribution; the run for every input of C57-C59 at exact and at shipped tolerances; messages and progress bars of -verbose and what is shown before an error are not modelled"
  },
  {
   "property": "C81",
   "status": "proved",
   "theorems": [
    "Phenum.C81_default",
    "Phenum.C81_verbose",
    "Phenum.C81_quiet",
    "Phenum.C81_quiet_doc",
    "Phenum.C81_monotone",
    "Phenum.C81_false_shows",
    "Phenum.C81_colour_of_kind",
    "Phenum.C81_colours",
    "Phenum.C81_colours_end",
    "Phenum.C81_help",
    "Phenum.C81_examples",
    "Phenum.C81_run"
   ],
   "note": "all of msg.py and exhandler; the texts of the help are arguments; argparse is not modelled"
  },
  {
   "property": "C82",
   "status": "proved",
   "theorems": [
    "Phenum.C82_selected",
    "Phenum.C82_free",
    "Phenum.C82_ranges",
    "Phenum.C82_sizes",
    "Phenum.C82_compositions",
    "Phenum.C82_shapes",
    "Phenum.C82_nothing",
    "Phenum.C82_missing_size"
   ],
   "note": "the whole run from the text of lattice.in and of the filter file to the text of enum.out; exact arithmetic with the tolerances as parameters (C82_selected) and with the shipped tolerances (C82_free, C82_ranges); the random search for large systems (more than 100000 arrangements) is excluded"
  },
  {
   "property": "C83",
   "status": "proved",
   "theorems": [
    "Phenum.C83_other_files",
    "Phenum.C83_start_over",
    "Phenum.C83_resume",
    "Phenum.C83_lost_sizes",
    "Phenum.C83_opened_table",
    "Phenum.C83_cut_requests",
    "Phenum.C83_lost_sizes_free"
   ],
   "note": "for every history of stopped calls of -enum (a)-(c); the losses are proved for the stopping points named; files not being written are assumed unharmed by the stop"
  },
  {
   "property": "C84",
   "status": "proved",
   "theorems": [
    "Phenum.C84_poscar_text",
    "Phenum.C84_config_text",
    "Phenum.C84_poscar_title",
    "Phenum.C84_config_name",
    "Phenum.C84_config_name_inj",
    "Phenum.C84_config_random",
    "Phenum.C84_config_number_twice"
   ],
   "note": "every POSCAR and config file over the reals; the readers are in the specification; infinities, NaN and the sign of a zero are not modelled"
  },
  {
   "property": "C85",
   "status": "proved",
   "theorems": [
    "Phenum.C85_poscar_files",
    "Phenum.C85_poscar_stopped",
    "Phenum.C85_poscar_cut",
    "Phenum.C85_config_file",
    "Phenum.C85_config_stopped",
    "Phenum.C85_config_twice",
    "Phenum.C85_written",
    "Phenum.C85_config_damaged",
    "Phenum.C85_written_cut"
   ],
   "note": "every history of stopped calls; a file being written holds a prefix of its text, other files are assumed unharmed by the stop"
  },
  {
   "property": "C86",
   "status": "proved",
   "theorems": [
    "Phenum.C86_config_is_structure",
    "Phenum.C86_make_config"
   ],
   "note": "exact arithmetic, displace = 0; for displacements see C37 (wrong direction table)"
  },
  {
   "property": "C87",
   "status": "proved",
   "theorems": [
    "Phenum.C87_poscar_files",
    "Phenum.C87_poscar_files_free",
    "Phenum.C87_poscar_files_noise",
    "Phenum.C87_poscar_files_free_noise"
   ],
   "note": "sizes: at most 7 cells, at most 18 sites in the largest supercell, 2 or 3 species, coordinates with seven decimals; with ranges, without, and with rounding errors up to 1e-10 in enumeration.py; makeStr itself in exact arithmetic up to the decimals it prints"
  },
  {
   "property": "C88",
   "status": "proved",
   "theorems": [
    "Phenum.C88_one_config",
    "Phenum.C88_one_config_free",
    "Phenum.C88_one_config_noise",
    "Phenum.C88_one_config_free_noise"
   ],
   "note": "sizes as in C87; no displacements; species none, one per label, or mapped injectively; makeStr in exact arithmetic up to the decimals it prints"
  },
  {
   "property": "C89",
   "status": "proved",
   "theorems": [
    "Phenum.C89_displaced_species",
    "Phenum.C89_shipped",
    "Phenum.C89_noise"
   ],
   "note": "two or three species, fewer than 12 sites per supercell, sizes from 1, arrow fractions 0 or 1; C89_noise needs the numbers of decorations to be exactly representable (NumbersFit)"
  },
  {
   "property": "C90",
   "status": "proved",
   "theorems": [
    "Phenum.C90_part_displaced",
    "Phenum.C90_shipped",
    "Phenum.C90_noise",
    "Phenum.C90_ripple_missing"
   ],
   "note": "two or three species, fewer than 12 sites per supercell; between the structures that are certainly listed and those that are certainly not (species with a smaller period, displacements in different directions) the result depends on the representative the code meets; C90_noise needs the numbers of displaced atoms to survive the rounding (ArrowsKept) and NumbersFit; C90_ripple_missing is a concrete lattice.in with a missing structure (bug)"
  },
  {
   "property": "C91",
   "status": "proved",
   "theorems": [
    "Phenum.C91_reading",
    "Phenum.C91_same",
    "Phenum.C91_same_make",
    "Phenum.C91_enum",
    "Phenum.C91_make",
    "Phenum.C91_last",
    "Phenum.C91_program"
   ],
   "note": "argparse of Python 3.11; the word `--` and the words behind it are part of Spec.Line; int() and float() in the notations of parseInt and parseFloat. The model agrees with argparse itself on 3000 random command lines"
  },
  {
   "property": "C92",
   "status": "proved",
   "theorems": [
    "Phenum.C92_call",
    "Phenum.C92_program",
    "Phenum.C92_crystals"
   ],
   "note": "C92_crystals is for lattice.in without restrictions; C92_program connects every other property of -enum with the command line"
  },
  {
   "property": "C93",
   "status": "proved",
   "theorems": [
    "Phenum.C93_bad_value",
    "Phenum.C93_unknown",
    "Phenum.C93_super_ignored",
    "Phenum.C93_ambiguous",
    "Phenum.C93_missing",
    "Phenum.C93_swallowed",
    "Phenum.C93_default_input",
    "Phenum.C93_documented",
    "Phenum.C93_examples"
   ],
   "note": "'does not run': the program stops with the usage text, or shows the examples; C93_super_ignored, C93_swallowed, C93_documented are defects"
  },
  {
   "property": "C94",
   "status": "proved",
   "theorems": [
    "Phenum.C94_struct_enum",
    "Phenum.C94_lattice_file",
    "Phenum.C94_forgets",
    "Phenum.C94_example_numbers"
   ],
   "note": "str on floats is an argument: every number of the lattice is written as a word that is read as the same number; reading by enum.x: the specification readEnumX (words of the lines, blank lines skipped)"
  },
  {
   "property": "C95",
   "status": "proved",
   "theorems": [
    "Phenum.C95_first",
    "Phenum.C95_none",
    "Phenum.C95_absolute",
    "Phenum.C95_sound",
    "Phenum.C95_path",
    "Phenum.C95_subdirectory"
   ],
   "note": "C95_subdirectory: names with a directory are also looked for below the directories of PATH, unlike in a shell. Posix paths; PATH is set"
  },
  {
   "property": "C96",
   "status": "proved",
   "theorems": [
    "Phenum.C96_struct_counts"
   ],
   "note": "the words of a line as in the output of enum.x: the seventh is the size, twelfth to seventeenth the HNF, the last the labeling"
  },
  {
   "property": "C97",
   "status": "proved",
   "theorems": [
    "Phenum.C97_poscars",
    "Phenum.C97_poscars_free",
    "Phenum.C97_config",
    "Phenum.C97_config_free"
   ],
   "note": "composition of C91, C92, C87, C88; CanReduce holds for the cubic lattices (cubic_canReduce). Rounding errors are in C87_poscar_files_noise, not here"
  },
  {
   "property": "C98",
   "status": "proved",
   "theorems": [
    "Phenum.C98_same_rows",
    "Phenum.C98_crystals",
    "Phenum.C98_misread"
   ],
   "note": "C98_same_rows: any call with -enum (any distribution, filter, -acceptrate up to 1), any directory; C98_misread: the defect, for every directory, directory order and random numbers. Exact arithmetic with the tolerances of the code"
  },
  {
   "property": "C99",
   "status": "proved",
   "theorems": [
    "Phenum.C99_request",
    "Phenum.C99_request_super",
    "Phenum.C99_displaced"
   ],
   "note": "Files whose entries count from 1; small requests (Modest), as in C43. C99_displaced: the defect, for every file with a group of the sites"
  },
  {
   "property": "C100",
   "status": "proved",
   "theorems": [
    "Phenum.C100_expand",
    "Phenum.C100_kidcount",
    "Phenum.C100_noappend"
   ],
   "note": "exact; the table is modelled row by row, writing outside of it would be an error"
  },
  {
   "property": "C101",
   "status": "proved",
   "theorems": [
    "Phenum.C101_some",
    "Phenum.C101_program",
    "Phenum.C101_program_small",
    "Phenum.C101_no_effect",
    "Phenum.C101_nothing",
    "Phenum.C101_nothing_arrows",
    "Phenum.C101_displaced"
   ],
   "note": "the cases without displaced atoms and the failing cases are exact; for one species all atoms displaced and superperiodic structures kept; C101_some: small requests (Modest, group balanced), superperiodic structures kept; the draws are an oracle indexed by branch and hash number, so every execution is covered"
  },
  {
   "property": "C102",
   "status": "proved",
   "theorems": [
    "Phenum.C102_request",
    "Phenum.C102_request_arrows",
    "Phenum.C102_request_single",
    "Phenum.C102_request_single_random",
    "Phenum.C102_super_silent",
    "Phenum.C102_large_silent",
    "Phenum.C102_distribution",
    "Phenum.C102_distribution_short",
    "Phenum.C102_outside",
    "Phenum.C102_outside_array",
    "Phenum.C102_quiet",
    "Phenum.C102_same",
    "Phenum.C102_missing_input",
    "Phenum.C102_switch",
    "Phenum.C102_switch_program"
   ],
   "note": "small requests (Modest) for C102_request(_arrows), two or more species; C102_request_single: one species, every atom displaced, at least a thousandth of the structures wanted (less: C102_request_single_random); what has been shown before an error is dropped; floats as text are left open"
  }
 ]
}