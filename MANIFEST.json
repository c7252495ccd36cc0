{
 "claims": [
  {
   "property": "C01",
   "status": "proved",
   "theorems": [
    "Interphon.Props.C01_accepted_args_consistent",
    "Interphon.Props.C01_set_user_argument_forgets"
   ],
   "note": ""
  },
  {
   "property": "C02",
   "status": "proved",
   "theorems": [
    "Interphon.Props.C02_check_decides_consistency",
    "Interphon.Props.C02_check_error_kind",
    "Interphon.Props.C02_check_unset"
   ],
   "note": ""
  },
  {
   "property": "C03",
   "status": "proved",
   "theorems": [
    "Interphon.Props.C03_failed_assignment_changes_nothing",
    "Interphon.Props.C03_history_invariant",
    "Interphon.Props.C03_fresh_history",
    "Interphon.Props.C03_accepted_values_stored",
    "Interphon.Props.C03_scalar_rejected",
    "Interphon.Props.C03_negative_displacement_silently_ignored",
    "Interphon.Props.C03_periodicity_text"
   ],
   "note": "A failed assignment changes nothing; finding: a negative displacement is silently ignored instead of rejected."
  },
  {
   "property": "C04",
   "status": "proved",
   "theorems": [
    "Interphon.Props.C04_order_irrelevant",
    "Interphon.Props.C04_periodicity_first_periodic",
    "Interphon.Props.C04_periodicity_first_nonperiodic_fails"
   ],
   "note": ""
  },
  {
   "property": "C05",
   "status": "partial",
   "theorems": [
    "Interphon.Props.C05_fractions_truncated",
    "Interphon.Props.C05_refuted",
    "Interphon.Props.C05_enlargement_positive_partial"
   ],
   "note": "Zero and negative enlargement factors are accepted along periodic directions (C05_refuted); what holds is that the factor of every non-periodic direction is 1 (C05_enlargement_positive_partial), and that fractional factors are truncated toward zero (C05_fractions_truncated)."
  },
  {
   "property": "C06",
   "status": "proved",
   "theorems": [
    "Interphon.Props.C06_supercell_positions",
    "Interphon.Props.C06_home_image_first",
    "Interphon.Props.C06_supercell_from_arguments"
   ],
   "note": ""
  },
  {
   "property": "C07",
   "status": "proved",
   "theorems": [
    "Interphon.Props.C07_supercell_counts_types",
    "Interphon.Props.C07_counts_add_up"
   ],
   "note": ""
  },
  {
   "property": "C08",
   "status": "proved",
   "theorems": [
    "Interphon.Props.C08_each_translation_once",
    "Interphon.Props.C08_atoms_distinct"
   ],
   "note": ""
  },
  {
   "property": "C09",
   "status": "proved",
   "theorems": [
    "Interphon.Props.C09_selection"
   ],
   "note": ""
  },
  {
   "property": "C10",
   "status": "proved",
   "theorems": [
    "Interphon.Props.C10_check_match_decides",
    "Interphon.Props.C10_accepts_own_supercell",
    "Interphon.Props.C10_rejects_other_enlargement"
   ],
   "note": ""
  },
  {
   "property": "C11",
   "status": "partial",
   "theorems": [
    "Interphon.Props.C11_shapes_partial",
    "Interphon.Props.C11_failed_assignment_changes_nothing",
    "Interphon.Props.C11_refuted_counts",
    "Interphon.Props.C11_refuted_selection",
    "Interphon.Props.C11_refuted_distinct",
    "Interphon.Props.C11_after_reading",
    "Interphon.Props.C11_reading_needs_atoms",
    "Interphon.Props.C11_setters_decide"
   ],
   "note": "Lengths/shapes are enforced; counts, selection and distinctness are not validated by the setters (refutations proved)."
  },
  {
   "property": "C12",
   "status": "proved",
   "theorems": [
    "Interphon.Props.C12_direct_cartesian",
    "Interphon.Props.C12_translation_shifts_direct",
    "Interphon.Props.C12_direct_setter"
   ],
   "note": ""
  },
  {
   "property": "C13",
   "status": "proved",
   "theorems": [
    "Interphon.Props.C13_reading_forgets",
    "Interphon.Props.C13_unknown_code_empties",
    "Interphon.Props.C13_known_code"
   ],
   "note": ""
  },
  {
   "property": "C14",
   "status": "proved",
   "theorems": [
    "Interphon.Props.C14_masses",
    "Interphon.Props.C14_masses_negative",
    "Interphon.Props.C14_unknown_element_raises"
   ],
   "note": ""
  },
  {
   "property": "C15",
   "status": "proved",
   "theorems": [
    "Interphon.Props.C15_periodic_directions",
    "Interphon.Props.C15_displaced_files",
    "Interphon.Props.C15_displaced_files_sym",
    "Interphon.Props.C15_home_rows_exist",
    "Interphon.Props.C15_point_group_fallback_crashes"
   ],
   "note": "Both the plain and the symmetry branch; the symmetry plan is a parameter here, it is supplied by C69-C75, C85, C86.  Finding: the fallback for an unnamed point group crashes."
  },
  {
   "property": "C16",
   "status": "partial",
   "theorems": [
    "Interphon.Props.C16_numbers_complete",
    "Interphon.Props.C16_names_injective",
    "Interphon.Props.C16_sorted_partial",
    "Interphon.Props.C16_sort_refuted",
    "Interphon.Props.C16_sorted_iff"
   ],
   "note": "Order holds up to 9999 files; refuted for 10000. Exact condition (C16_sorted_iff): name order = number order iff fewer than 10000 files."
  },
  {
   "property": "C17",
   "status": "partial",
   "theorems": [
    "Interphon.Props.C17_what_changes_partial",
    "Interphon.Props.C17_refuted",
    "Interphon.Props.C17_unchanged_iff",
    "Interphon.Props.C17_second_call_differs"
   ],
   "note": "write_displace_cell leaves the super cell changed (last atom displaced, selective off): refuted, exact change proved. Exact condition under which nothing changes: C17_unchanged_iff."
  },
  {
   "property": "C18",
   "status": "partial",
   "theorems": [
    "Interphon.Props.C18_check_iff",
    "Interphon.Props.C18_accepts_generated",
    "Interphon.Props.C18_rejects_wrong_order",
    "Interphon.Props.C18_extra_files_refuted",
    "Interphon.Props.C18_small_displacement_refuted"
   ],
   "note": "The check accepts exactly the listed order within np.allclose's tolerance.  Refuted in full: surplus files are ignored, and a displacement below 1e-5 of the coordinate is invisible."
  },
  {
   "property": "C19",
   "status": "proved",
   "theorems": [
    "Interphon.Props.C19_harmonic_exact"
   ],
   "note": ""
  },
  {
   "property": "C20",
   "status": "proved",
   "theorems": [
    "Interphon.Props.C20_central_difference_error",
    "Interphon.Props.C20_entry_error"
   ],
   "note": ""
  },
  {
   "property": "C21",
   "status": "proved",
   "theorems": [
    "Interphon.Props.C21_entry_layout"
   ],
   "note": ""
  },
  {
   "property": "C22",
   "status": "proved",
   "theorems": [
    "Interphon.Props.C22_symmetry_reconstruction",
    "Interphon.Props.C22_end_to_end"
   ],
   "note": "Under the covariance hypotheses that a real symmetry supplies; C86 derives those hypotheses from the crystal."
  },
  {
   "property": "C23",
   "status": "partial",
   "theorems": [
    "Interphon.Props.C23_surplus_detected_partial",
    "Interphon.Props.C23_missing_file_keeps_garbage",
    "Interphon.Props.C23_independent_iff",
    "Interphon.Props.C23_rejected_iff",
    "Interphon.Props.C23_refuted"
   ],
   "note": "Surplus files raise; missing files leave uninitialised columns (refuted). Exact condition for independence of the uninitialised memory: C23_independent_iff; which numbers of files raise: C23_rejected_iff."
  },
  {
   "property": "C24",
   "status": "proved",
   "theorems": [
    "Interphon.Props.C24_reciprocal_dual"
   ],
   "note": ""
  },
  {
   "property": "C25",
   "status": "partial",
   "theorems": [
    "Interphon.Props.C25_nearest_of_all",
    "Interphon.Props.C25_bad_image_bulk",
    "Interphon.Props.C25_equivalent_not_longer_partial",
    "Interphon.Props.C25_one_direction_nearest",
    "Interphon.Props.C25_bad_image",
    "Interphon.Props.C25_refuted"
   ],
   "note": "Lattice equivalent and never longer than the plain difference, always; shortest of all periodic images with one periodic direction or two at right angles when the plain difference is centred (C25_nearest_of_all; holds in the super cells of C98_centred). Not always the shortest: refuted for two directions with separations beyond the centred range and for a cubic bulk crystal (C25_bad_image_bulk)."
  },
  {
   "property": "C26",
   "status": "proved",
   "theorems": [
    "Interphon.Props.C26_commensurate",
    "Interphon.Props.C26_gamma_commensurate"
   ],
   "note": ""
  },
  {
   "property": "C27",
   "status": "proved",
   "theorems": [
    "Interphon.Props.C27_time_reversal",
    "Interphon.Props.C27_gamma_real"
   ],
   "note": ""
  },
  {
   "property": "C28",
   "status": "proved",
   "theorems": [
    "Interphon.Props.C28_reciprocal_periodicity"
   ],
   "note": ""
  },
  {
   "property": "C29",
   "status": "proved",
   "theorems": [
    "Interphon.Props.C29_acoustic_sum_rule",
    "Interphon.Props.C29_zero_modes"
   ],
   "note": ""
  },
  {
   "property": "C30",
   "status": "proved",
   "theorems": [
    "Interphon.Props.C30_value",
    "Interphon.Props.C30_order_preserving",
    "Interphon.Props.C30_sign",
    "Interphon.Props.C30_sorted_complete"
   ],
   "note": ""
  },
  {
   "property": "C31",
   "status": "partial",
   "theorems": [
    "Interphon.Props.C31_sorted_columns_partial",
    "Interphon.Props.C31_refuted_order",
    "Interphon.Props.C31_refuted_rows"
   ],
   "note": "eig returns eigenvectors as columns, the code stores rows of the matrix: refuted; the partial theorem says what would be stored by columns."
  },
  {
   "property": "C32",
   "status": "partial",
   "theorems": [
    "Interphon.Props.C32_hermitian_commensurate_partial",
    "Interphon.Props.C32_hermitian_no_ties_partial",
    "Interphon.Props.C32_refuted"
   ],
   "note": "Hermitian at commensurate wave vectors, and whenever no two images tie; refuted with a tie."
  },
  {
   "property": "C33",
   "status": "proved",
   "theorems": [
    "Interphon.Props.C33_gamma_mesh",
    "Interphon.Props.C33_count",
    "Interphon.Props.C33_order",
    "Interphon.Props.C33_gamma_first",
    "Interphon.Props.C33_distinct"
   ],
   "note": ""
  },
  {
   "property": "C34",
   "status": "partial",
   "theorems": [
    "Interphon.Props.C34_mp_mesh",
    "Interphon.Props.C34_even_standard_partial",
    "Interphon.Props.C34_odd_misses_gamma",
    "Interphon.Props.C34_refuted",
    "Interphon.Props.C34_standard_iff"
   ],
   "note": "Implements shift (i+1/2)/n for all n, which differs from the Monkhorst-Pack formula for odd n (refuted); even n proved. Exact condition: C34_standard_iff."
  },
  {
   "property": "C35",
   "status": "proved",
   "theorems": [
    "Interphon.Props.C35_mismatch_iff"
   ],
   "note": ""
  },
  {
   "property": "C36",
   "status": "proved",
   "theorems": [
    "Interphon.Props.C36_line_points",
    "Interphon.Props.C36_segment_ends",
    "Interphon.Props.C36_odd_rejected"
   ],
   "note": ""
  },
  {
   "property": "C37",
   "status": "partial",
   "theorems": [
    "Interphon.Props.C37_stays_in_plane_partial",
    "Interphon.Props.C37_start_checked",
    "Interphon.Props.C37_refuted",
    "Interphon.Props.C37_mismatch_iff",
    "Interphon.Props.C37_in_plane_iff"
   ],
   "note": "Only the first point of each segment is checked (refuted for the second). Exact conditions: C37_in_plane_iff, C37_mismatch_iff."
  },
  {
   "property": "C38",
   "status": "partial",
   "theorems": [
    "Interphon.Props.C38_always_fails",
    "Interphon.Props.C38_accepts_partial",
    "Interphon.Props.C38_accepted_iff",
    "Interphon.Props.C38_refuted"
   ],
   "note": "Line mode always raises IndexError for three periodic directions (refuted). Exact condition: C38_accepted_iff."
  },
  {
   "property": "C39",
   "status": "partial",
   "theorems": [
    "Interphon.Props.C39_unknown_silently_empty",
    "Interphon.Props.C39_known_modes_partial",
    "Interphon.Props.C39_refuted"
   ],
   "note": "An unknown mode letter gives empty k points without an error (refuted)."
  },
  {
   "property": "C40",
   "status": "proved",
   "theorems": [
    "Interphon.Props.C40_weights_1d",
    "Interphon.Props.C40_weights_2d",
    "Interphon.Props.C40_weights_3d"
   ],
   "note": ""
  },
  {
   "property": "C41",
   "status": "partial",
   "theorems": [
    "Interphon.Props.C41_nonneg_1d",
    "Interphon.Props.C41_nonneg_2d",
    "Interphon.Props.C41_nonneg_3d",
    "Interphon.Props.C41_mesh_nonneg",
    "Interphon.Props.C41_mesh_support",
    "Interphon.Props.C41_simplex_partial",
    "Interphon.Props.C41_nan_refuted",
    "Interphon.Props.C41_nan_iff"
   ],
   "note": "Non-negative and supported in the band; a NaN is possible where two vertex frequencies coincide with a grid frequency (refuted)."
  },
  {
   "property": "C42",
   "status": "proved",
   "theorems": [
    "Interphon.Props.C42_unit_weight_1d",
    "Interphon.Props.C42_unit_weight_2d",
    "Interphon.Props.C42_unit_weight_3d",
    "Interphon.Props.C42_mesh_weight",
    "Interphon.Props.C42_flat_contributes_nothing"
   ],
   "note": ""
  },
  {
   "property": "C43",
   "status": "partial",
   "theorems": [
    "Interphon.Props.C43_corner_wave_vectors",
    "Interphon.Props.C43_dos_simplices_1d",
    "Interphon.Props.C43_dos_simplices_2d",
    "Interphon.Props.C43_dos_simplices_3d",
    "Interphon.Props.C43_cover_2d",
    "Interphon.Props.C43_disjoint_2d",
    "Interphon.Props.C43_cover_3d",
    "Interphon.Props.C43_disjoint_3d",
    "Interphon.Props.C43_equal_volume_3d",
    "Interphon.Props.C43_equal_area_2d",
    "Interphon.Props.C43_use_1d",
    "Interphon.Props.C43_use_2d",
    "Interphon.Props.C43_use_3d",
    "Interphon.Props.C43_weight_1d_partial",
    "Interphon.Props.C43_weight_2d_partial",
    "Interphon.Props.C43_weight_3d_partial",
    "Interphon.Props.C43_weight_3d_refuted",
    "Interphon.Props.C43_single_division_refuted",
    "Interphon.Props.C43_single_row_refuted",
    "Interphon.Props.C43_normalised_2d_partial",
    "Interphon.Props.C43_normalised_1d_partial",
    "Interphon.Props.C43_normalised_3d_partial"
   ],
   "note": "Tiling, index use and weights proved; 3-D weight wrong for n2 != n3, single divisions give weight 0 or IndexError (refuted)."
  },
  {
   "property": "C44",
   "status": "partial",
   "theorems": [
    "Interphon.Props.C44_total_partial",
    "Interphon.Props.C44_total_nan",
    "Interphon.Props.C44_zero_dim_refuted",
    "Interphon.Props.C44_iff"
   ],
   "note": "Periodic cases and Gaussian smearing; for 0-D the projected densities are not filled (refuted)."
  },
  {
   "property": "C45",
   "status": "partial",
   "theorems": [
    "Interphon.Props.C45_sorted_partial",
    "Interphon.Props.C45_equal_amplitudes_partial",
    "Interphon.Props.C45_unsorted_refuted",
    "Interphon.Props.C45_segment_iff"
   ],
   "note": "Amplitudes are taken in unsorted order (refuted); correct if frequencies arrive sorted or amplitudes are equal."
  },
  {
   "property": "C46",
   "status": "proved",
   "theorems": [
    "Interphon.Props.C46_grid",
    "Interphon.Props.C46_succeeds_iff"
   ],
   "note": ""
  },
  {
   "property": "C47",
   "status": "partial",
   "theorems": [
    "Interphon.Props.C47_doubles_refuted",
    "Interphon.Props.C47_zero_dim_partial",
    "Interphon.Props.C47_iff",
    "Interphon.Props.C47_differs_refuted"
   ],
   "note": "A second set() doubles the densities (refuted); it changes nothing exactly when all entries are zero or NaN (C47_iff)."
  },
  {
   "property": "C48",
   "status": "proved",
   "theorems": [
    "Interphon.Props.C48_entry",
    "Interphon.Props.C48_unit_area",
    "Interphon.Props.C48_projected",
    "Interphon.Props.C48_total"
   ],
   "note": ""
  },
  {
   "property": "C49",
   "status": "proved",
   "theorems": [
    "Interphon.Props.C49_free_energy_formula",
    "Interphon.Props.C49_entropy_formula",
    "Interphon.Props.C49_derivative",
    "Interphon.Props.C49_derivative_total"
   ],
   "note": ""
  },
  {
   "property": "C50",
   "status": "proved",
   "theorems": [
    "Interphon.Props.C50_signs",
    "Interphon.Props.C50_signs_total",
    "Interphon.Props.C50_entropy_monotone"
   ],
   "note": ""
  },
  {
   "property": "C51",
   "status": "proved",
   "theorems": [
    "Interphon.Props.C51_one_zero",
    "Interphon.Props.C51_limit"
   ],
   "note": ""
  },
  {
   "property": "C52",
   "status": "partial",
   "theorems": [
    "Interphon.Props.C52_no_zero_partial",
    "Interphon.Props.C52_two_zeros_refuted",
    "Interphon.Props.C52_zero_mode_refuted",
    "Interphon.Props.C52_finite_iff",
    "Interphon.Props.C52_repeat_refuted"
   ],
   "note": "Two zero temperatures compute nothing, a zero mode is not finite, repeating doubles (refuted)."
  },
  {
   "property": "C53",
   "status": "proved",
   "theorems": [
    "Interphon.Props.C53_imaginary"
   ],
   "note": ""
  },
  {
   "property": "C54",
   "status": "proved",
   "theorems": [
    "Interphon.Props.C54_frames",
    "Interphon.Props.C54_first_frame",
    "Interphon.Props.C54_average"
   ],
   "note": ""
  },
  {
   "property": "C55",
   "status": "proved",
   "theorems": [
    "Interphon.Props.C55_chosen_k"
   ],
   "note": ""
  },
  {
   "property": "C56",
   "status": "proved",
   "theorems": [
    "Interphon.Props.C56_supercell_built",
    "Interphon.Props.C56_commensurate_rounded",
    "Interphon.Props.C56_commensurate",
    "Interphon.Props.C56_denominator_limit"
   ],
   "note": ""
  },
  {
   "property": "C57",
   "status": "proved",
   "theorems": [
    "Interphon.Props.C57_roundtrip",
    "Interphon.Props.C57_rounding_error",
    "Interphon.Props.C57_exact_values"
   ],
   "note": ""
  },
  {
   "property": "C58",
   "status": "proved",
   "theorems": [
    "Interphon.Props.C58_written_iff",
    "Interphon.Props.C58_roundtrip",
    "Interphon.Props.C58_counts"
   ],
   "note": ""
  },
  {
   "property": "C59",
   "status": "proved",
   "theorems": [
    "Interphon.Props.C59_roundtrip"
   ],
   "note": ""
  },
  {
   "property": "C60",
   "status": "proved",
   "theorems": [
    "Interphon.Props.C60_vasprun",
    "Interphon.Props.C60_outcar",
    "Interphon.Props.C60_espresso",
    "Interphon.Props.C60_aims",
    "Interphon.Props.C60_missing",
    "Interphon.Props.C60_other_name",
    "Interphon.Props.C60_truncated"
   ],
   "note": ""
  },
  {
   "property": "C61",
   "status": "partial",
   "theorems": [
    "Interphon.Props.C61_direct_file",
    "Interphon.Props.C61_same_cell_partial",
    "Interphon.Props.C61_scaled_iff",
    "Interphon.Props.C61_scaled_refuted"
   ],
   "note": "Scale factor 1 or direct coordinates; refuted for scaled Cartesian files. Exact condition: C61_scaled_iff."
  },
  {
   "property": "C62",
   "status": "partial",
   "theorems": [
    "Interphon.Props.C62_cartesian_file",
    "Interphon.Props.C62_scale_one_partial",
    "Interphon.Props.C62_scaled_iff",
    "Interphon.Props.C62_scale_refuted"
   ],
   "note": "The scale factor is not applied to Cartesian coordinates (refuted). Exact condition: C62_scaled_iff."
  },
  {
   "property": "C63",
   "status": "partial",
   "theorems": [
    "Interphon.Props.C63_line_partial",
    "Interphon.Props.C63_read_partial",
    "Interphon.Props.C63_line_iff",
    "Interphon.Props.C63_refuted"
   ],
   "note": "VASP flags and QE fixed flags proved for lines without a coordinate token '0'; refuted with such a token."
  },
  {
   "property": "C64",
   "status": "proved",
   "theorems": [
    "Interphon.Props.C64_case_insensitive",
    "Interphon.Props.C64_element_weight",
    "Interphon.Props.C64_no_confusion"
   ],
   "note": ""
  },
  {
   "property": "C65",
   "status": "partial",
   "theorems": [
    "Interphon.Props.C65_only_elements_partial",
    "Interphon.Props.C65_header_returns_none",
    "Interphon.Props.C65_refuted",
    "Interphon.Props.C65_rejected_iff"
   ],
   "note": "Keys that are not elements exist in the table (header rows): refuted; partial theorem for all other keys; exact condition: C65_rejected_iff."
  },
  {
   "property": "C66",
   "status": "proved",
   "theorems": [
    "Interphon.Props.C66_candidates",
    "Interphon.Props.C66_nodup",
    "Interphon.Props.C66_closed"
   ],
   "note": ""
  },
  {
   "property": "C67",
   "status": "proved",
   "theorems": [
    "Interphon.Props.C67_reduced_complete",
    "Interphon.Props.C67_unreduced_incomplete"
   ],
   "note": ""
  },
  {
   "property": "C68",
   "status": "proved",
   "theorems": [
    "Interphon.Props.C68_crystallographic",
    "Interphon.Props.C68_order",
    "Interphon.Props.C68_lookUp",
    "Interphon.Props.C68_accepted",
    "Interphon.Props.C68_search_no_assert"
   ],
   "note": ""
  },
  {
   "property": "C69",
   "status": "proved",
   "theorems": [
    "Interphon.Props.C69_recorded_maps",
    "Interphon.Props.C69_needs_plane"
   ],
   "note": "For crystals whose distinct atoms of one type are more than the matching tolerance apart and a well-conditioned lattice."
  },
  {
   "property": "C70",
   "status": "partial",
   "theorems": [
    "Interphon.Props.C70_all_selected_partial",
    "Interphon.Props.C70_fixed_atoms_refuted"
   ],
   "note": "Fixed atoms are not tested (refuted); with all atoms selected every recorded operation is a symmetry of the whole structure."
  },
  {
   "property": "C71",
   "status": "partial",
   "theorems": [
    "Interphon.Props.C71_symmorphic_partial",
    "Interphon.Props.C71_found_iff",
    "Interphon.Props.C71_translation_partial",
    "Interphon.Props.C71_glide_refuted"
   ],
   "note": "Symmorphic operations are all found; with a translation if the type check hits the right atom (C71_translation_partial); a glide translation is computed from the wrong atom and missed (refuted). Exactly what is found: C71_found_iff."
  },
  {
   "property": "C72",
   "status": "proved",
   "theorems": [
    "Interphon.Props.C72_group_named",
    "Interphon.Props.C72_name_determined",
    "Interphon.Props.C72_search",
    "Interphon.Props.C72_raises"
   ],
   "note": ""
  },
  {
   "property": "C73",
   "status": "proved",
   "theorems": [
    "Interphon.Props.C73_partition",
    "Interphon.Props.C73_cell"
   ],
   "note": ""
  },
  {
   "property": "C74",
   "status": "partial",
   "theorems": [
    "Interphon.Props.C74_independent_partial",
    "Interphon.Props.C74_coplanar_refuted"
   ],
   "note": "Independent for periodicities with axis 2 out of plane; coplanar directions possible for periodicity 0 1 1 (refuted)."
  },
  {
   "property": "C75",
   "status": "partial",
   "theorems": [
    "Interphon.Props.C75_orthogonal_partial",
    "Interphon.Props.C75_orthogonal_iff",
    "Interphon.Props.C75_unequal_edges_refuted"
   ],
   "note": "Orthogonal if the two in-plane edges that an operation mixes have equal length, refuted otherwise. Exact condition: C75_orthogonal_iff."
  },
  {
   "property": "C76",
   "status": "partial",
   "theorems": [
    "Interphon.Props.C76_default_arguments_partial",
    "Interphon.Props.C76_files_partial",
    "Interphon.Props.C76_files_iff",
    "Interphon.Props.C76_directory_refuted"
   ],
   "note": "Arguments are reused; files only if pre- and post-process run in the unit cell's directory (refuted otherwise; exact condition: C76_files_iff)."
  },
  {
   "property": "C77",
   "status": "partial",
   "theorems": [
    "Interphon.Props.C77_explicit_wins_partial",
    "Interphon.Props.C77_explicit_wins_iff",
    "Interphon.Props.C77_explicit_default_refuted"
   ],
   "note": "An explicit value equal to the default loses against the record (refuted). Exact condition: C77_explicit_wins_iff."
  },
  {
   "property": "C78",
   "status": "proved",
   "theorems": [
    "Interphon.Props.C78_sym_flag_agrees",
    "Interphon.Props.C78_check_accepts"
   ],
   "note": ""
  },
  {
   "property": "C79",
   "status": "partial",
   "theorems": [
    "Interphon.Props.C79_ignored_iff",
    "Interphon.Props.C79_setting_line",
    "Interphon.Props.C79_value_with_equals_refuted",
    "Interphon.Props.C79_file_partial",
    "Interphon.Props.C79_order",
    "Interphon.Props.C79_two_spellings_refuted",
    "Interphon.Props.C79_integer_setting",
    "Interphon.Props.C79_real_setting",
    "Interphon.Props.C79_choice_setting",
    "Interphon.Props.C79_text_setting",
    "Interphon.Props.C79_one_option"
   ],
   "note": "Line grammar and last-setting semantics for one spelling per option; refuted for two spellings and for values containing '='."
  },
  {
   "property": "C80",
   "status": "partial",
   "theorems": [
    "Interphon.Props.C80_refuted",
    "Interphon.Props.C80_explicit_objects_partial",
    "Interphon.Props.C80_history_partial",
    "Interphon.Props.C80_defaults_untouched",
    "Interphon.Props.C80_shared_defaults"
   ],
   "note": "Default-constructed objects are shared (mutable default arguments): refuted; explicit objects do not interfere."
  },
  {
   "property": "C81",
   "status": "partial",
   "theorems": [
    "Interphon.Props.C81_path_partial",
    "Interphon.Props.C81_tick_list",
    "Interphon.Props.C81_cubic_partial",
    "Interphon.Props.C81_proportional_iff",
    "Interphon.Props.C81_cartesian_refuted",
    "Interphon.Props.C81_single_point",
    "Interphon.Props.C81_repeat_coordinates"
   ],
   "note": "Path length is the sum of fractional, not Cartesian, distances (refuted; equal up to a factor for cubic lattices). Exact condition for a common factor: C81_proportional_iff."
  },
  {
   "property": "C82",
   "status": "proved",
   "theorems": [
    "Interphon.Props.C82_weights",
    "Interphon.Props.C82_projection",
    "Interphon.Props.C82_partition",
    "Interphon.Props.C82_coloured"
   ],
   "note": ""
  },
  {
   "property": "C83",
   "status": "proved",
   "theorems": [
    "Interphon.Props.C83_explicit_list"
   ],
   "note": ""
  },
  {
   "property": "C84",
   "status": "partial",
   "theorems": [
    "Interphon.Props.C84_written_structure",
    "Interphon.Props.C84_along_mode_partial",
    "Interphon.Props.C84_physical_iff",
    "Interphon.Props.C84_complex_mode_refuted"
   ],
   "note": "Only the real part of the mode is used (refuted for complex modes). Exact condition: C84_physical_iff."
  },
  {
   "property": "C85",
   "status": "partial",
   "theorems": [
    "Interphon.Props.C85_recorded_tables",
    "Interphon.Props.C85_all_tables",
    "Interphon.Props.C85_supercell_partial",
    "Interphon.Props.C85_enlargement_refuted"
   ],
   "note": "Recorded tables are images; every symmetry has a table for equal enlargement, refuted for unequal enlargement with an axis-mixing operation."
  },
  {
   "property": "C86",
   "status": "partial",
   "theorems": [
    "Interphon.Props.C86_symmetry_end_to_end_partial",
    "Interphon.Props.C86_symmorphic_partial",
    "Interphon.Props.C86_fixed_atoms_refuted"
   ],
   "note": "Proved for crystals whose recorded symmetry is exact: periodicity 1 1 0, symmorphic operations, lattices where C74/C75 hold, isotropic enlargement, force constants with the symmetry of the selected atoms. Refuted with fixed atoms (C86_fixed_atoms_refuted): a free atom in a rectangular cell with a fixed atom in a general position; the search takes the mirror planes of the free atom alone and the force constants of a spring between the two atoms come out wrong without an error."
  },
  {
   "property": "C87",
   "status": "partial",
   "theorems": [
    "Interphon.Props.C87_analyses_partial",
    "Interphon.Props.C87_mode_skipped_refuted",
    "Interphon.Props.C87_missing_input",
    "Interphon.Props.C87_iff"
   ],
   "note": "Analyses run as asked except: -mode without band k points is silently skipped (refuted), missing inputs raise; exact conditions: C87_iff."
  },
  {
   "property": "C88",
   "status": "proved",
   "theorems": [
    "Interphon.Props.C88_groups_read_back",
    "Interphon.Props.C88_accepted_consistent"
   ],
   "note": ""
  },
  {
   "property": "C89",
   "status": "partial",
   "theorems": [
    "Interphon.Props.C89_frequencies_current_partial",
    "Interphon.Props.C89_first_evaluation_partial",
    "Interphon.Props.C89_inputs_kept",
    "Interphon.Props.C89_wave_vectors",
    "Interphon.Props.C89_reciprocal",
    "Interphon.Props.C89_stale_frequencies",
    "Interphon.Props.C89_refuted"
   ],
   "note": "Holds whenever there are wave vectors and for the first evaluation; with a k-point file that yields none (unknown mode letter) the frequencies of the previous file stay (refuted)."
  },
  {
   "property": "C90",
   "status": "proved",
   "theorems": [
    "Interphon.Props.C90_preparation_order",
    "Interphon.Props.C90_repetition"
   ],
   "note": "np.empty content of an array after an exception is left open; eigenvalue solver is any outcome of eig + argsort."
  },
  {
   "property": "C91",
   "status": "proved",
   "theorems": [
    "Interphon.Props.C91_gamma_file",
    "Interphon.Props.C91_molecule",
    "Interphon.Props.C91_molecule_matrix"
   ],
   "note": "File content as numbers; the text of a row is covered by the number formats."
  },
  {
   "property": "C92",
   "status": "proved",
   "theorems": [
    "Interphon.Props.C92_file_roundtrip",
    "Interphon.Props.C92_supercell_file"
   ],
   "note": "VASP, QE and AIMS; unit cell of known elements with contiguous type groups (what the writers need, C57-C59)."
  },
  {
   "property": "C93",
   "status": "proved",
   "theorems": [
    "Interphon.Props.C93_displaced_files_accepted"
   ],
   "note": "Both branches; the symmetry branch needs a plan (outcome of the search) that lists atoms of the cell, the same in pre- and post-process."
  },
  {
   "property": "C94",
   "status": "proved",
   "theorems": [
    "Interphon.Props.C94_rounding_error",
    "Interphon.Props.C94_order_kept",
    "Interphon.Props.C94_total_dos",
    "Interphon.Props.C94_projected_dos",
    "Interphon.Props.C94_band",
    "Interphon.Props.C94_thermal",
    "Interphon.Props.C94_gamma_file",
    "Interphon.Props.C94_method_line"
   ],
   "note": "Values are doubles (rational, nan, inf); negative zero is not modelled."
  },
  {
   "property": "C95",
   "status": "proved",
   "theorems": [
    "Interphon.Props.C95_labels",
    "Interphon.Props.C95_labels_distinct",
    "Interphon.Props.C95_columns_of_an_atom"
   ],
   "note": "Finding: the three columns of an atom share one label."
  },
  {
   "property": "C96",
   "status": "proved",
   "theorems": [
    "Interphon.Props.C96_animation_file",
    "Interphon.Props.C96_no_image"
   ],
   "note": "Positions of the images are those of C54, as rationals; num_images = 0 raises UnboundLocalError."
  },
  {
   "property": "C97",
   "status": "proved",
   "theorems": [
    "Interphon.Props.C97_copy_position",
    "Interphon.Props.C97_exact_dynamical_matrix",
    "Interphon.Props.C97_exact_frequencies"
   ],
   "note": "Plain branch (no symmetry); springs of finite range; atoms that are not selected are clamped, as in the program."
  },
  {
   "property": "C98",
   "status": "partial",
   "theorems": [
    "Interphon.Props.C98_centred",
    "Interphon.Props.C98_spring_image",
    "Interphon.Props.C98_exact_everywhere",
    "Interphon.Props.C98_exact_frequencies_everywhere",
    "Interphon.Props.C98_bulk_refuted"
   ],
   "note": "Proved for isolated systems, one periodic direction, and two periodic directions at right angles with a super cell at least two cells wide; refuted for three periodic directions (cubic crystal, 2x2x2 super cell, C98_bulk_refuted): the sequential search ends at a wrong image."
  },
  {
   "property": "C99",
   "status": "proved",
   "theorems": [
    "Interphon.Props.C99_same_crystal_same_frequencies"
   ],
   "note": "Plain branch (no symmetry), harmonic forces; masses per atom."
  },
  {
   "property": "C100",
   "status": "proved",
   "theorems": [
    "Interphon.Props.C100_scaling"
   ],
   "note": "Plain branch (no symmetry), arbitrary forces."
  },
  {
   "property": "C101",
   "status": "proved",
   "theorems": [
    "Interphon.Props.C101_automatic",
    "Interphon.Props.C101_explicit"
   ],
   "note": "Exact reals; matplotlib rendering not modelled."
  },
  {
   "property": "C102",
   "status": "proved",
   "theorems": [
    "Interphon.Props.C102_labels"
   ],
   "note": "Texts handed to matplotlib."
  },
  {
   "property": "C103",
   "status": "proved",
   "theorems": [
    "Interphon.Props.C103_lines",
    "Interphon.Props.C103_stack",
    "Interphon.Props.C103_bulk",
    "Interphon.Props.C103_stack_fills_total",
    "Interphon.Props.C103_side_panel"
   ],
   "note": "At grid points where the projected DOS are numbers (no NaN); stackplot of matplotlib is taken to draw running sums."
  },
  {
   "property": "C104",
   "status": "partial",
   "theorems": [
    "Interphon.Props.C104_corners_partial",
    "Interphon.Props.C104_jump_refuted"
   ],
   "note": "Proved for connected paths whose steps exceed the tolerance; on a path with a jump the inner corners get no tick and labels raise ValueError (C104_jump_refuted)."
  },
  {
   "property": "C105",
   "status": "partial",
   "theorems": [
    "Interphon.Props.C105_drawn_partial",
    "Interphon.Props.C105_molecule_refuted",
    "Interphon.Props.C105_molecule_iff"
   ],
   "note": "Proved with smearing or with a periodic direction; for molecules without smearing line/stack plots raise ValueError (C105_molecule_refuted); exactly when they can be drawn there: C105_molecule_iff (one grid point, as many grid points as modes, or no selected atom in any group)."
  },
  {
   "property": "C106",
   "status": "proved",
   "theorems": [
    "Interphon.Props.C106_no_superfluous"
   ],
   "note": "Slab with a, b in the plane; operations isometric and compatible with the edge scaling (as C74)."
  },
  {
   "property": "C107",
   "status": "proved",
   "theorems": [
    "Interphon.Props.C107_same_calculation",
    "Interphon.Props.C107_after_any_history"
   ],
   "note": "Force files are complete and read without exception; three coordinates per atom selected (whole atoms), as the readers produce."
  },
  {
   "property": "C108",
   "status": "proved",
   "theorems": [
    "Interphon.Props.C108_several_arguments",
    "Interphon.Props.C108_pattern",
    "Interphon.Props.C108_numbered"
   ],
   "note": "glob is an arbitrary function from pattern to listing."
  },
  {
   "property": "C109",
   "status": "partial",
   "theorems": [
    "Interphon.Props.C109_temperatures",
    "Interphon.Props.C109_labels_read_back",
    "Interphon.Props.C109_band_consistent",
    "Interphon.Props.C109_same_window",
    "Interphon.Props.C109_integers_read_back",
    "Interphon.Props.C109_mode_arguments",
    "Interphon.Props.C109_mode_iff",
    "Interphon.Props.C109_amplitude_refuted"
   ],
   "note": "Violated for the amplitude: the option file stores disp_amp_mode as text which is never converted (C109_amplitude_refuted); everything else is proved."
  },
  {
   "property": "C110",
   "status": "proved",
   "theorems": [
    "Interphon.Props.C110_vector",
    "Interphon.Props.C110_lattice",
    "Interphon.Props.C110_atoms",
    "Interphon.Props.C110_selected"
   ],
   "note": "The YAML serialisation of the resulting dictionaries (PyYAML) is not modelled."
  },
  {
   "property": "C111",
   "status": "proved",
   "theorems": [
    "Interphon.Props.C111_accepted_is_consistent"
   ],
   "note": "Inversion of the three readers and the setters for an arbitrary text (Props/Readers.lean)."
  },
  {
   "property": "C112",
   "status": "partial",
   "theorems": [
    "Interphon.Props.C112_poscar_complete_partial",
    "Interphon.Props.C112_espresso_refuted",
    "Interphon.Props.C112_aims_refuted"
   ],
   "note": "Proved for POSCAR (acceptance implies that every announced atom has its line and was read). Refuted for Quantum ESPRESSO (nat = 2 with one position line is accepted as one atom) and for FHI-aims (the format announces no number of atoms)."
  },
  {
   "property": "C113",
   "status": "proved",
   "theorems": [
    "Interphon.Props.C113_indices",
    "Interphon.Props.C113_files",
    "Interphon.Props.C113_structures",
    "Interphon.Props.C113_bad_index",
    "Interphon.Props.C113_last_request"
   ],
   "note": "ASE is represented by the positions it reads; file names by the numbers they are formed from."
  },
  {
   "property": "C114",
   "status": "partial",
   "theorems": [
    "Interphon.Props.C114_bad_indices_partial",
    "Interphon.Props.C114_unchanged_iff",
    "Interphon.Props.C114_unlisted_k_refuted"
   ],
   "note": "True for bad indices; refuted for an unlisted k point: indices and k point are stored, the mode vectors are not, so files written afterwards carry the rejected k point and show the old modes. Exact condition: C114_unchanged_iff."
  },
  {
   "property": "C115",
   "status": "proved",
   "theorems": [
    "Interphon.Props.C115_energy",
    "Interphon.Props.C115_zero_temperature",
    "Interphon.Props.C115_energy_monotone",
    "Interphon.Props.C115_classical_limit"
   ],
   "note": "Exact reals; overflow of cosh/sinh is not modelled."
  },
  {
   "property": "C116",
   "status": "proved",
   "theorems": [
    "Interphon.Props.C116_picture",
    "Interphon.Props.C116_rows",
    "Interphon.Props.C116_no_temperature"
   ],
   "note": "Only the data handed to matplotlib are modelled."
  },
  {
   "property": "C117",
   "status": "proved",
   "theorems": [
    "Interphon.Props.C117_thermal_constants",
    "Interphon.Props.C117_forces",
    "Interphon.Props.C117_masses",
    "Interphon.Props.C117_frequencies"
   ],
   "note": "Compared with CODATA 2018 values in the specification; the relation of force constants to forces (central difference over twice the displacement in metre) is C22."
  },
  {
   "property": "C118",
   "status": "proved",
   "theorems": [
    "Interphon.Props.C118_preprocess",
    "Interphon.Props.C118_files",
    "Interphon.Props.C118_end_to_end"
   ],
   "note": "The record pre_process.yaml is a typed value; floats are exact; pictures and messages are left out. A complete example (POSCAR text, six vasprun.xml texts, k-point file) meets all hypotheses. With symmetry see C70-C75, C98-C100."
  },
  {
   "property": "C119",
   "status": "partial",
   "theorems": [
    "Interphon.Props.C119_only_output_files",
    "Interphon.Props.C119_unit_cell_kept_partial",
    "Interphon.Props.C119_overwritten_refuted"
   ],
   "note": "The frame is proved in full; the unit-cell file is kept unless it is itself called SUPERCELL: then it is silently overwritten by the super cell (refuted theorem with a concrete run)."
  },
  {
   "property": "C120",
   "status": "proved",
   "theorems": [
    "Interphon.Props.C120_dos_and_band"
   ],
   "note": "With the symmetry flag on, two directions have to be periodic (as after a pre-process that found a point group); otherwise the searches could differ. Pictures and messages are left out."
  },
  {
   "property": "C121",
   "status": "proved",
   "theorems": [
    "Interphon.Props.C121_dos_thermal"
   ],
   "note": "Hypothesis on the eigenvalue solver: the stored mode rows of a Hermitian matrix are normalised (true of a unitary eigenvector matrix; such a solver exists, proved). Thermal part: no frequency exactly zero (C52). sigma = 0 (tetrahedra) is C40-C45. A complete example (carbon chain, zone boundary) meets all hypotheses."
  },
  {
   "property": "C122",
   "status": "proved",
   "theorems": [
    "Interphon.Props.C122_band",
    "Interphon.Props.C122_dos",
    "Interphon.Props.C122_both",
    "Interphon.Props.C122_preprocess"
   ],
   "note": "Superfluous output files at the end of the list are accepted (they only need a readable structure next to them). With symmetry the order check is C18."
  },
  {
   "property": "C123",
   "status": "proved",
   "theorems": [
    "Interphon.Props.C123_poscar",
    "Interphon.Props.C123_aims",
    "Interphon.Props.C123_espresso",
    "Interphon.Props.C123_lines"
   ],
   "note": "POSCAR counts and the ESPRESSO nat are taken to be non-negative. What counts as a number is the model of float()/int() in Py.lean (decimal notation with exponent; nan, inf and underscores are not modelled)."
  },
  {
   "property": "C124",
   "status": "partial",
   "theorems": [
    "Interphon.Props.C124_file",
    "Interphon.Props.C124_accepted_iff",
    "Interphon.Props.C124_symmetry_iff",
    "Interphon.Props.C124_values",
    "Interphon.Props.C124_single_row",
    "Interphon.Props.C124_complete_partial",
    "Interphon.Props.C124_truncated",
    "Interphon.Props.C124_single_row_refuted"
   ],
   "note": "False of the code for a table cut after its first line (C124_single_row_refuted): numpy broadcasts the single row. C124_accepted_iff is the exact condition."
  },
  {
   "property": "C125",
   "status": "proved",
   "theorems": [
    "Interphon.Props.C125_accepted_iff"
   ],
   "note": "A line of fewer than three numbers in a path or list counts as malformed in the model (numpy fails later). An unknown mode letter yields no wave vectors without an exception (C39)."
  },
  {
   "property": "C126",
   "status": "partial",
   "theorems": [
    "Interphon.Props.C126_fixed_atoms_refuted",
    "Interphon.Props.C126_same_phonons_partial",
    "Interphon.Props.C126_exact_frequencies_partial"
   ],
   "note": "Partial: proved for slab cells with periodicity 1 1 0 whose recorded symmetry is exact (ExactCrystal; every crystal symmorphic about the origin is one) and force constants with the symmetry of the selected atoms, as in C86. False of the code when fixed atoms break that symmetry, since the search ignores them (C126_fixed_atoms_refuted: all frequencies 0 instead of a positive one); glide operations make the code wrong as well (C71)."
  },
  {
   "property": "C127",
   "status": "proved",
   "theorems": [
    "Interphon.Props.C127_integer",
    "Interphon.Props.C127_number",
    "Interphon.Props.C127_rejected",
    "Interphon.Props.C127_integer_is_number",
    "Interphon.Props.C127_words"
   ],
   "note": "Python's own additional spellings inf, nan, infinity, underscores between digits and non-ASCII digits are outside the model (the model rejects them, Python accepts them); float values are exact rationals instead of the nearest double."
  },
  {
   "property": "C128",
   "status": "proved",
   "theorems": [
    "Interphon.Props.C128_force_constants",
    "Interphon.Props.C128_continuous",
    "Interphon.Props.C128_errors"
   ],
   "note": "The numbers of the model are exact; the rounding of the program's own arithmetic is not part of the error. The bound is one-sided (every stored frequency is near a true one); the two-sided, ordered statement is the continuity theorem, without an explicit rate."
  },
  {
   "property": "C129",
   "status": "proved",
   "theorems": [
    "Interphon.Props.C129_end_to_end"
   ],
   "note": "The error covers the forces and the rounding of the displaced cells in the files; the arithmetic of the program itself is exact in the model. The bound is one-sided (every reported frequency is near a true one); with eta = 0 and an amplitude of at most 16 decimals C118 gives equality."
  },
  {
   "property": "C130",
   "status": "partial",
   "theorems": [
    "Interphon.Props.C130_end_to_end_partial"
   ],
   "note": "Partial: only for crystals on which the recorded operations are exact (ExactCrystal, which includes all symmorphic crystals written exactly; C85/C86 show the program goes wrong on others). The rational displacements of the text files can only approximate the directions computed with square roots, which is why the plan is quantified up to eps. A complete example (rectangular slab, texts of all output files) meets all hypotheses."
  },
  {
   "property": "C131",
   "status": "partial",
   "theorems": [
    "Interphon.Props.C131_along_mode_partial",
    "Interphon.Props.C131_real_mode_partial",
    "Interphon.Props.C131_gamma_partial",
    "Interphon.Props.C131_along_mode_iff",
    "Interphon.Props.C131_animation_gamma_iff",
    "Interphon.Props.C131_animation_gamma",
    "Interphon.Props.C131_full_refuted"
   ],
   "note": "Proved for modes whose real part is an eigenvector, hence for real modes and for all modes at the zone centre; away from half reciprocal lattice vectors this condition is also necessary (C131_along_mode_iff). False in general: the program multiplies the real part of the mode by cos(q.r) and drops the imaginary part times the sine; for a row of molecules translating as a whole the structure written has stretched molecules (C131_full_refuted). That rows of the stored array are not eigenvectors is a separate finding (C31)."
  },
  {
   "property": "C132",
   "status": "proved",
   "theorems": [
    "Interphon.Props.C132_matrix",
    "Interphon.Props.C132_frequencies",
    "Interphon.Props.C132_converges",
    "Interphon.Props.C132_exact_arithmetic"
   ],
   "note": "Branch without symmetry. Over- and underflow are excluded by the assumption on the arithmetic; the eigenvalue solver enters through backward stability. binary_rounds shows that binary floating-point numbers with p >= 2 digits satisfy the assumption with eps = 2^-p; C132_exact_arithmetic shows that with exact operations the machine model is the exact model of the other properties."
  },
  {
   "property": "C133",
   "status": "proved",
   "theorems": [
    "Interphon.Props.C133_segment",
    "Interphon.Props.C133_triangle",
    "Interphon.Props.C133_tetrahedron",
    "Interphon.Props.C133_mesh_projected",
    "Interphon.Props.C133_mesh_total",
    "Interphon.Props.C133_ascending"
   ],
   "note": "The shares are Lebesgue measures in affine coordinates; the proof identifies Fourier transforms. Flat simplices contribute nothing in the code (C42_flat_contributes_nothing) although their states sit at one frequency, which no density can represent; they are left out of the sum explicitly. C133_mesh_projected says exactly which corner's amplitude is used where (mixedUp), C133_ascending when that is the right one."
  },
  {
   "property": "C134",
   "status": "proved",
   "theorems": [
    "Interphon.Props.C134_tetrahedron",
    "Interphon.Props.C134_all_states"
   ],
   "note": "Normalised eigenvectors are assumed of the solver (as in C121), and sorted results of np.argsort. With different numbers of divisions along the second and third direction the weights are wrong (C43_weight_3d_refuted), hence the restriction in the statement. Exact arithmetic."
  },
  {
   "property": "C135",
   "status": "partial",
   "theorems": [
    "Interphon.Props.C135_files",
    "Interphon.Props.C135_animation_iff",
    "Interphon.Props.C135_modes_partial",
    "Interphon.Props.C135_no_mode",
    "Interphon.Props.C135_refuted"
   ],
   "note": "The code reads rows where the modes are columns (C31): C135_files says exactly what is written; C135_animation_iff gives the exact condition for a zone-centre animation to be a mode; C135_modes_partial proves the claim when the rows are real eigenvectors; C135_no_mode and C135_refuted give a stable chain for which no animation at all is a mode, with any solver normalising like LAPACK. Exact arithmetic; plotting with ASE left out."
  },
  {
   "property": "C136",
   "status": "partial",
   "theorems": [
    "Interphon.Props.C136_written",
    "Interphon.Props.C136_column_iff",
    "Interphon.Props.C136_projected_partial",
    "Interphon.Props.C136_no_column",
    "Interphon.Props.C136_refuted"
   ],
   "note": "The code reads rows where the modes are columns (C31): C136_written says exactly what the columns hold; C136_column_iff gives the exact condition for a column to be right (normal densities with different centres are linearly independent on the written rows); C136_projected_partial proves the claim when the rows of the array have the squared entries of normal modes (the result does not depend on the choice of modes at degenerate frequencies); C136_no_column and C136_refuted give atoms held by a surface with stable springs for which no column is right, with any solver normalising like LAPACK. The total density is right (C121)."
  },
  {
   "property": "C137",
   "status": "partial",
   "theorems": [
    "Interphon.Props.C137_refines",
    "Interphon.Props.C137_user_files_kept",
    "Interphon.Props.C137_record_last",
    "Interphon.Props.C137_repeat",
    "Interphon.Props.C137_describes_partial",
    "Interphon.Props.C137_exact",
    "Interphon.Props.C137_refuted",
    "Interphon.Props.C137_noticed"
   ],
   "note": "C137_refines: the traced program and preMain have the same complete runs; C137_user_files_kept, C137_record_last, C137_repeat and C137_exact prove the first three claims; C137_describes_partial the last one after a complete run. C137_refuted: a second run with another displacement, stopped before its record, leaves the old record (0.02) beside the new files (0.03). C137_noticed: the post-process fails in this situation unless the two displacements agree within its tolerance."
  },
  {
   "property": "C138",
   "status": "proved",
   "theorems": [
    "Interphon.Props.C138_inputs_kept",
    "Interphon.Props.C138_repeat",
    "Interphon.Props.C138_dos_text",
    "Interphon.Props.C138_thermal_text",
    "Interphon.Props.C138_band_text",
    "Interphon.Props.C138_both_text",
    "Interphon.Props.C138_gamma_text",
    "Interphon.Props.C138_record_last",
    "Interphon.Props.C138_band_end_to_end",
    "Interphon.Props.C138_dos_end_to_end",
    "Interphon.Props.C138_molecule_end_to_end"
   ],
   "note": "The mode analysis is left out; pictures and the content of post_process.yaml are unknowns. C138_repeat and C138_both_text need input files that are not called like result files. C138_thermal_text needs the picture of the density of states not to fail, since it is drawn before that file is written."
  },
  {
   "property": "C139",
   "status": "partial",
   "theorems": [
    "Interphon.Props.C139_files",
    "Interphon.Props.C139_user_arguments",
    "Interphon.Props.C139_flags_partial",
    "Interphon.Props.C139_values",
    "Interphon.Props.C139_determined_partial",
    "Interphon.Props.C139_directory_refuted",
    "Interphon.Props.C139_label_refuted",
    "Interphon.Props.C139_mode_flag_refuted"
   ],
   "note": "The record determines the run if the k-point files are named without directories and the label of the colour bar is not the word None (C139_directory_refuted, C139_label_refuted). With -mode and a k-point file for the density of states only, the record says that modes were asked for although none are calculated (C139_mode_flag_refuted)."
  },
  {
   "property": "C140",
   "status": "proved",
   "theorems": [
    "Interphon.Props.C140_inputs_kept",
    "Interphon.Props.C140_animations",
    "Interphon.Props.C140_displaced",
    "Interphon.Props.C140_viewer_fails",
    "Interphon.Props.C140_record_last"
   ],
   "note": "The texts are followed down to the bytes of the animation and structure files; what ASE writes and the text Python makes of the k point are free. Result files are recognised by their names."
  },
  {
   "property": "C141",
   "status": "partial",
   "theorems": [
    "Interphon.Props.C141_files",
    "Interphon.Props.C141_completes_iff",
    "Interphon.Props.C141_refuted"
   ],
   "note": "total_dos.dat is always right (C141_files). The program completes exactly if -ndos is at least three times the number of selected atoms (C141_completes_iff); otherwise it stops with an IndexError in the middle of projected_dos.dat and writes no record (C141_refuted). With the default of 200 rows this happens for 67 selected atoms."
  }
 ]
}