{
 "claims": [
  {
   "property": "C01",
   "status": "proved",
   "theorems": [
    "C01_fixed_end_equilibrium"
   ],
   "note": ""
  },
  {
   "property": "C02",
   "status": "partial",
   "theorems": [
    "C02_clamped_partial",
    "C02_curvature_partial",
    "C02_end_moments_violation"
   ],
   "note": "All mechanical loads and imposed curvature up to degree two (Simpson is inexact beyond; C144 bounds its error for every degree); LoadMaMb states its end moments itself, so the statement fails for it (proved)."
  },
  {
   "property": "C03",
   "status": "partial",
   "theorems": [
    "C03_released_moment_zero",
    "C03_release_equilibrium_partial",
    "C03_pinned_pinned_iff",
    "C03_pinned_pinned_violation"
   ],
   "note": "False for pinned-pinned members (wrong sign of the end-moment couple); proved for the other types, and the exact condition for pinned-pinned."
  },
  {
   "property": "C04",
   "status": "partial",
   "theorems": [
    "C04_release_by_condensation_partial",
    "C04_member_release_partial",
    "C04_pinned_pinned_violation"
   ],
   "note": "False for pinned-pinned members; proved for the other types, slender and shear-flexible."
  },
  {
   "property": "C05",
   "status": "proved",
   "theorems": [
    "C05_factoring_scales"
   ],
   "note": ""
  },
  {
   "property": "C06",
   "status": "proved",
   "theorems": [
    "C06_trapez_eq_pudl",
    "C06_pudl_full_eq_udl",
    "C06_split_trapez",
    "C06_split_pudl"
   ],
   "note": ""
  },
  {
   "property": "C07",
   "status": "proved",
   "theorems": [
    "C07_mirror"
   ],
   "note": ""
  },
  {
   "property": "C08",
   "status": "partial",
   "theorems": [
    "C08_trapez_overhang",
    "C08_pudl_overhang_forces_partial",
    "C08_pudl_offspan_raises",
    "C08_pudl_diagram_violation"
   ],
   "note": "Trapezoidal loads are clipped; partial UDL diagrams are not (violation proved), and a partial UDL off the span raises."
  },
  {
   "property": "C09",
   "status": "proved",
   "theorems": [
    "C09_shear_moment_diagrams",
    "C09_moment_continuous"
   ],
   "note": ""
  },
  {
   "property": "C10",
   "status": "proved",
   "theorems": [
    "C10_rotation_deflection_diagrams"
   ],
   "note": ""
  },
  {
   "property": "C11",
   "status": "proved",
   "theorems": [
    "C11_stiffness_symmetric"
   ],
   "note": ""
  },
  {
   "property": "C12",
   "status": "proved",
   "theorems": [
    "C12_rigid_body"
   ],
   "note": ""
  },
  {
   "property": "C13",
   "status": "proved",
   "theorems": [
    "C13_energy_nonneg"
   ],
   "note": ""
  },
  {
   "property": "C14",
   "status": "proved",
   "theorems": [
    "C14_release_is_condensation"
   ],
   "note": ""
  },
  {
   "property": "C15",
   "status": "proved",
   "theorems": [
    "C15_slender_is_stiffer",
    "C15_correction",
    "C15_tendsto_slender",
    "C15_inverse_flexibility"
   ],
   "note": ""
  },
  {
   "property": "C16",
   "status": "proved",
   "theorems": [
    "C16_prescribed_met"
   ],
   "note": ""
  },
  {
   "property": "C17",
   "status": "proved",
   "theorems": [
    "C17_free_equilibrium"
   ],
   "note": "Stated with the reported member end forces instead of K d = f."
  },
  {
   "property": "C18",
   "status": "partial",
   "theorems": [
    "C18_vertical_equilibrium_partial",
    "C18_prescribed_without_support"
   ],
   "note": "Needs prescribed displacements only at rigid supports; otherwise false (violation proved). Loads must lie on their spans. Foundation members: C110."
  },
  {
   "property": "C19",
   "status": "partial",
   "theorems": [
    "C19_moment_equilibrium_partial",
    "C19_pinned_pinned_violation"
   ],
   "note": "As C18, and false with pinned-pinned members (violation proved)."
  },
  {
   "property": "C20",
   "status": "proved",
   "theorems": [
    "C20_superposition",
    "C20_scaling"
   ],
   "note": ""
  },
  {
   "property": "C21",
   "status": "proved",
   "theorems": [
    "C21_solver_independent",
    "C21_elimination_order"
   ],
   "note": ""
  },
  {
   "property": "C22",
   "status": "proved",
   "theorems": [
    "C22_reciprocity"
   ],
   "note": ""
  },
  {
   "property": "C23",
   "status": "proved",
   "theorems": [
    "C23_mechanism_rejected",
    "C23_accepted_unique"
   ],
   "note": "For every eigenvalue routine that returns exactly the eigenvalues of a symmetric matrix (one exists over the reals: realEigs_sound)."
  },
  {
   "property": "C24",
   "status": "proved",
   "theorems": [
    "C24_rigid_settlement"
   ],
   "note": ""
  },
  {
   "property": "C25",
   "status": "proved",
   "theorems": [
    "C25_only_completed_analysis_stores",
    "C25_failure_keeps_results",
    "C25_history"
   ],
   "note": ""
  },
  {
   "property": "C26",
   "status": "partial",
   "theorems": [
    "C26_checked_analysis_is_stable_partial",
    "C26_edit_forces_check",
    "C26_in_place_edit_violation"
   ],
   "note": "Proved for edits through setters and methods; false for in-place writes into the public restraint list (violation proved)."
  },
  {
   "property": "C27",
   "status": "proved",
   "theorems": [
    "C27_envelope_bounds"
   ],
   "note": ""
  },
  {
   "property": "C28",
   "status": "proved",
   "theorems": [
    "C28_envelope_attained"
   ],
   "note": ""
  },
  {
   "property": "C29",
   "status": "proved",
   "theorems": [
    "C29_coincident",
    "C31_augment_union",
    "C31_combine_union"
   ],
   "note": "Also after augment and combine."
  },
  {
   "property": "C30",
   "status": "proved",
   "theorems": [
    "C30_order_irrelevant"
   ],
   "note": ""
  },
  {
   "property": "C31",
   "status": "proved",
   "theorems": [
    "C31_augment_union",
    "C31_mismatch_rejected",
    "C31_augment_algebra",
    "C31_combine_union"
   ],
   "note": ""
  },
  {
   "property": "C32",
   "status": "partial",
   "theorems": [
    "C32_merge_history_partial",
    "C32_history_reappears"
   ],
   "note": "Holds for a single merge; false for sequences of merges (a later merge with the original count refills the blanked history): violation proved."
  },
  {
   "property": "C33",
   "status": "proved",
   "theorems": [
    "C33_sum_bounds"
   ],
   "note": ""
  },
  {
   "property": "C34",
   "status": "proved",
   "theorems": [
    "C34_unique_names",
    "C34_rejected_unchanged",
    "C34_set_keeps_position"
   ],
   "note": ""
  },
  {
   "property": "C35",
   "status": "proved",
   "theorems": [
    "C35_mapping",
    "C35_unknown",
    "C35_vector"
   ],
   "note": ""
  },
  {
   "property": "C36",
   "status": "partial",
   "theorems": [
    "C36_combination_partial",
    "C36_settlement_violation",
    "C36_curvature_violation"
   ],
   "note": "Proved with no prescribed displacements and no imposed curvature on released members; false otherwise (violations proved)."
  },
  {
   "property": "C37",
   "status": "proved",
   "theorems": [
    "C37_extreme_over_subsets",
    "C37_reported_subsets"
   ],
   "note": ""
  },
  {
   "property": "C38",
   "status": "proved",
   "theorems": [
    "C38_extreme_over_sized_subsets",
    "C38_refusal"
   ],
   "note": ""
  },
  {
   "property": "C39",
   "status": "proved",
   "theorems": [
    "C39_target_extreme"
   ],
   "note": ""
  },
  {
   "property": "C40",
   "status": "proved",
   "theorems": [
    "C40_partition",
    "C40_resultants",
    "C40_span_cases"
   ],
   "note": ""
  },
  {
   "property": "C41",
   "status": "partial",
   "theorems": [
    "C41_case_model_partial",
    "C41_foundation_violation"
   ],
   "note": "Holds for beams without a foundation whose settlement list matches the restraints; the foundation is dropped (violation proved)."
  },
  {
   "property": "C42",
   "status": "proved",
   "theorems": [
    "C42_patterns",
    "C42_unset"
   ],
   "note": ""
  },
  {
   "property": "C43",
   "status": "proved",
   "theorems": [
    "C43_local_coords"
   ],
   "note": ""
  },
  {
   "property": "C44",
   "status": "proved",
   "theorems": [
    "C44_pair",
    "C44_supports"
   ],
   "note": ""
  },
  {
   "property": "C45",
   "status": "partial",
   "theorems": [
    "C45_parse_partial",
    "C45_junk",
    "C45_junk_violation"
   ],
   "note": "Plain decimal lengths round-trip; text before the first and after the last terminal is ignored (violation proved)."
  },
  {
   "property": "C46",
   "status": "partial",
   "theorems": [
    "C46_add_span_partial",
    "C46_rejected_section",
    "C46_add_spans",
    "C46_at_once",
    "C46_restraints",
    "C46_bad_type_violation",
    "C46_extend_violation",
    "C46_short_types_violation"
   ],
   "note": "Holds for accepted spans; a rejected member type leaves the span half added, restraints are not extended and short type lists are accepted (violations proved)."
  },
  {
   "property": "C47",
   "status": "proved",
   "theorems": [
    "C47_order",
    "C47_place",
    "C47_meaning"
   ],
   "note": ""
  },
  {
   "property": "C48",
   "status": "partial",
   "theorems": [
    "C48_row_counts_partial",
    "C48_unknown_type_violation",
    "C48_span_violation"
   ],
   "note": "Proved for types 1 to 6 on spans of the beam; unknown types and spans outside the beam are ignored (violations proved)."
  },
  {
   "property": "C49",
   "status": "partial",
   "theorems": [
    "C49_end_closure_partial",
    "C49_pinned_pinned_violation"
   ],
   "note": "Moments for all member types, shears for all but pinned-pinned members (violation proved); a force or couple applied exactly at an end appears as the documented jump."
  },
  {
   "property": "C50",
   "status": "proved",
   "theorems": [
    "C50_split_span",
    "C50_split_not_mechanism"
   ],
   "note": "Prismatic fixed-fixed span; trapezoidal loads must end on the span; imposed curvature on the divided span is not covered."
  },
  {
   "property": "C51",
   "status": "partial",
   "theorems": [
    "C51_at_partial",
    "C51_start_violation",
    "C51_support_violation"
   ],
   "note": "False at the start of the beam and inside the first interval after a support (violations proved); proved everywhere else."
  },
  {
   "property": "C52",
   "status": "proved",
   "theorems": [
    "C52_stations"
   ],
   "note": ""
  },
  {
   "property": "C53",
   "status": "partial",
   "theorems": [
    "C53_accepts",
    "C53_values",
    "C53_total_partial",
    "C53_breakpoints",
    "C53_stations",
    "C53_fits",
    "C53_outside",
    "C53_gap_violation",
    "C53_poly_violation",
    "C53_extrapolation_violation"
   ],
   "note": "Total and positive for segments that abut exactly and are not polynomial, except within 1e-12 after the end of a piece; inexact joins leave unassigned coordinates, fitted polynomials and extrapolated linear pieces can be negative (violations proved). np.polyfit is a parameter."
  },
  {
   "property": "C54",
   "status": "proved",
   "theorems": [
    "C54_axles",
    "C54_total"
   ],
   "note": ""
  },
  {
   "property": "C55",
   "status": "partial",
   "theorems": [
    "C55_clear",
    "C55_lane_partial",
    "C55_error",
    "C55_continuous",
    "C55_axles_in_zone",
    "C55_refused",
    "C55_sliver_violation"
   ],
   "note": "Exact unless a stretch within a span is shorter than 1e-9, which is dropped (violation proved, loss bounded by C55_error)."
  },
  {
   "property": "C56",
   "status": "partial",
   "theorems": [
    "C56_coordinates",
    "C56_reverse_in_place",
    "C56_reverse_copy",
    "C56_sequences_partial",
    "C56_mixed_violation"
   ],
   "note": "A copying reversal after a reversal in place does not reverse (violation proved); all other sequences are covered."
  },
  {
   "property": "C57",
   "status": "partial",
   "theorems": [
    "C57_train_partial",
    "C57_equal_spacing_violation",
    "C57_coincident_violation",
    "C57_reversed_violation"
   ],
   "note": "The documented single spacing and vehicles with coincident axles are rejected, reversal in place is ignored (violations proved)."
  },
  {
   "property": "C58",
   "status": "proved",
   "theorems": [
    "C58_positions",
    "C58_zero_step"
   ],
   "note": "For positive steps and an end not before the start."
  },
  {
   "property": "C59",
   "status": "partial",
   "theorems": [
    "C59_critical_partial",
    "C59_reactions",
    "C59_position_violation"
   ],
   "note": "Reported positions include results whose extreme is only close to the critical value (violation proved); everything else holds."
  },
  {
   "property": "C60",
   "status": "proved",
   "theorems": [
    "C60_superposition"
   ],
   "note": "any set of loads at influence-line positions, any station effect or reaction; no prescribed displacements (InfluenceLines takes none), nonsingular structure, -1 the only negative restraint value"
  },
  {
   "property": "C61",
   "status": "partial",
   "theorems": [
    "C61_history_partial",
    "C61_recreate_violation"
   ],
   "note": "holds while the lines are created at most once; after a second creation abscissae of the earlier one are kept (violation proved)"
  },
  {
   "property": "C62",
   "status": "partial",
   "theorems": [
    "C62_graph_partial",
    "C62_eval",
    "C62_cantilever_partial",
    "C62_compound",
    "C62_cantilever_violation",
    "C62_contraflexure_violation",
    "C62_ordering_violation"
   ],
   "note": "All profiles are graphs through their control points; the slopes of a compound parabola match at the right contraflexure point exactly when b = c or e_mid = e_right (violation proved); a cantilever parabola ignores e_mid; the documented ordering of CompoundParabola is not the one checked."
  },
  {
   "property": "C63",
   "status": "partial",
   "theorems": [
    "C63_primary_moment_partial",
    "C63_reported_partial",
    "C63_self_equilibrating_partial",
    "C63_small_curvature_violation"
   ],
   "note": "Exact -F e(x) when nothing is in the range the code drops (at most 1e-9), and in every case up to an explicit bound; also for the moments a complete analysis reports. Dropping makes the result depend on the unit of length (violation proved)."
  },
  {
   "property": "C64",
   "status": "partial",
   "theorems": [
    "C64_stiffness",
    "C64_mesh",
    "C64_internal_nonsingular",
    "C64_mesh_equilibrium",
    "C64_loads_partial",
    "C64_load_error",
    "C64_load_violation",
    "C64_balance",
    "C64_floating",
    "C64_scope"
   ],
   "note": "Everything except partial UDLs whose ends fall within np.isclose of a mesh node or in slivers below 1e-12 L, which change the total load (violation proved, error bounded by C64_load_error). The inverse routine is a parameter with its contract."
  },
  {
   "property": "C65",
   "status": "partial",
   "theorems": [
    "C65_bounds",
    "C65_demand_monotone",
    "C65_first_position_violation"
   ],
   "note": "Factors in [q,1] and monotone demand for both analyses, any solver; the demand at the end of the first position of a moving load is never assessed (violation proved)."
  },
  {
   "property": "C66",
   "status": "proved",
   "theorems": [
    "C66_events"
   ],
   "note": ""
  },
  {
   "property": "C67",
   "status": "partial",
   "theorems": [
    "C67_mesh_partial",
    "C67_yield",
    "C67_rigidity_violation"
   ],
   "note": "Mesh, plastic moments proved; first element of every later span carries the EI of the span before (violation proved)."
  },
  {
   "property": "C68",
   "status": "partial",
   "theorems": [
    "C68_resultant_partial",
    "C68_types_violation"
   ],
   "note": "Resultant force and moment for UDLs and point loads; other load types and points off the beam silently dropped (violation proved)."
  },
  {
   "property": "C69",
   "status": "proved",
   "theorems": [
    "C69_element_mass",
    "C69_kinetic_energy",
    "C69_assembled_mass",
    "C69_modes"
   ],
   "note": "The eigenvalue routine is a parameter with its documented contract."
  },
  {
   "property": "C70",
   "status": "partial",
   "theorems": [
    "C70_same_structure_partial",
    "C70_prescribed_violated",
    "C70_negative_restraint_violated",
    "C70_foundation_violated"
   ],
   "note": "Proved for beams without prescribed displacements and with rigid restraints -1; violated otherwise; foundations are ignored by solve_modal (violation proved)."
  },
  {
   "property": "C71",
   "status": "partial",
   "theorems": [
    "C71_scope",
    "C71_names_partial",
    "C71_meaning",
    "C71_double_space"
   ],
   "note": "scope and totality for all histories; names up to case, outer white space and choice of separator; a doubled inner space is not recognised although the comment says spaces are collapsed; no function of the analysis model takes a unit system"
  },
  {
   "property": "C72",
   "status": "partial",
   "theorems": [
    "C72_stiffness",
    "C72_udl_one_segment_partial",
    "C72_two_segments_violation"
   ],
   "note": "The stiffness never depends on the division; fixed-end forces of a uniform load are prismatic for one segment, and differ for every division into two (violation proved with the exact error). The Gauss-Legendre table is a parameter with its contract."
  },
  {
   "property": "C73",
   "status": "partial",
   "theorems": [
    "C73_static_partial",
    "C73_recapture_violation",
    "C73_alias_violation"
   ],
   "note": "Capturing again after a run and adding loads before the first run change the static loads (violations proved)."
  },
  {
   "property": "C74",
   "status": "partial",
   "theorems": [
    "C74_names",
    "C74_names_else",
    "C74_codes_partial",
    "C74_fraction_violation"
   ],
   "note": "Names and integer codes exactly; fractional codes are truncated (violation proved). Letters outside ASCII are not modelled."
  },
  {
   "property": "C75",
   "status": "proved",
   "theorems": [
    "C75_shear_points"
   ],
   "note": ""
  },
  {
   "property": "C76",
   "status": "partial",
   "theorems": [
    "C76_clamped_partial",
    "C76_curvature_partial",
    "C76_couple_violation"
   ],
   "note": "Every mechanical load without couples and imposed curvature up to degree two (C144 bounds the integration error beyond); every applied couple leaves the end displaced by -m/GAv (violation proved). Prismatic members."
  },
  {
   "property": "C77",
   "status": "proved",
   "theorems": [
    "C77_adequate_supports"
   ],
   "note": ""
  },
  {
   "property": "C78",
   "status": "proved",
   "theorems": [
    "C78_per_span"
   ],
   "note": ""
  },
  {
   "property": "C79",
   "status": "partial",
   "theorems": [
    "C79_end_displacements_partial",
    "C79_padding_violation"
   ],
   "note": "Holds at the first interior station (rotation unless released) and, for released members integrated by boundary conditions, at the last; false at the padding stations (violation proved); at the right end of other members it holds only up to integration error."
  },
  {
   "property": "C80",
   "status": "partial",
   "theorems": [
    "C80_segment_partial",
    "C80_segment_error",
    "C80_refusal",
    "C80_segment_violation"
   ],
   "note": "Exact where no segment end falls within the tolerances of a support; false there (violation proved), with the error bounded in all cases by C80_segment_error."
  },
  {
   "property": "C81",
   "status": "partial",
   "theorems": [
    "C81_end_moments_partial",
    "C81_floating_violation"
   ],
   "note": "The reported moments are those acting less the consistent nodal moments of the foundation on the piece; equality fails on every foundation member (violation proved)."
  },
  {
   "property": "C82",
   "status": "proved",
   "theorems": [
    "C82_static",
    "C82_moving"
   ],
   "note": ""
  },
  {
   "property": "C83",
   "status": "proved",
   "theorems": [
    "C83_elastic"
   ],
   "note": ""
  },
  {
   "property": "C84",
   "status": "partial",
   "theorems": [
    "C84_supports_partial",
    "C84_springs_violation"
   ],
   "note": "Rigid restraints exact; springs ignored (violation proved)."
  },
  {
   "property": "C85",
   "status": "partial",
   "theorems": [
    "C85_detects_partial",
    "C85_single_hinge_violation",
    "C85_false_collapse_violation",
    "C85_three_spans_violation"
   ],
   "note": "Mechanisms with two or more hinges are detected; single-hinge mechanisms are missed and false ones reported (violations proved)."
  },
  {
   "property": "C86",
   "status": "partial",
   "theorems": [
    "C86_spans_partial",
    "C86_counts",
    "C86_short_tendon_violation",
    "C86_force_step_violation",
    "C86_no_tendon_violation"
   ],
   "note": "Tendons through every span of a beam without free ends; tendons that stop short, force steps and unstressed cantilevers violate the claim (proved)."
  },
  {
   "property": "C87",
   "status": "partial",
   "theorems": [
    "C87_variable",
    "C87_fixed",
    "C87_cooper",
    "C87_la_rail",
    "C87_abag_bdouble_partial",
    "C87_abag_index",
    "C87_abag_violation"
   ],
   "note": "Every getter except the Australian assessment trucks, whose documented totals are not met (violation proved: 68 t instead of 68.5 t, 53 t instead of 45 t). get_example_permit and get_validation_truck have no documented data."
  },
  {
   "property": "C88",
   "status": "partial",
   "theorems": [
    "C88_shear_points_partial",
    "C88_support_violation"
   ],
   "note": "Sections further than 1e-9 of the member from its ends; for a section at a support the values are taken one station away (violation proved)."
  },
  {
   "property": "C89",
   "status": "partial",
   "theorems": [
    "C89_scope_partial",
    "C89_report_partial",
    "C89_leak_violation",
    "C89_report_violation"
   ],
   "note": "Holds for runs with a nonzero step, and for reports directly after the run; a zero step leaves the points behind, and a static analysis in between changes the sections reported for the run (violations proved)."
  },
  {
   "property": "C90",
   "status": "partial",
   "theorems": [
    "C90_ratios",
    "C90_meaning",
    "C90_compatibility_violation"
   ],
   "note": "The ratios are as documented; envelopes of different bridges are accepted (violation proved)."
  },
  {
   "property": "C91",
   "status": "partial",
   "theorems": [
    "C91_exact_partial",
    "C91_exact_iff",
    "C91_reported",
    "C91_reactions",
    "C91_unique",
    "C91_well_posed",
    "C91_pinned_pinned_violation"
   ],
   "note": "Proved for every slender prismatic beam whose pinned-pinned members carry loads with balanced clamped end moments; `C91_exact_iff` shows that this is exactly when an elastic line fits, so unbalanced loads on such a member refute the property."
  },
  {
   "property": "C92",
   "status": "proved",
   "theorems": [
    "C92_convergence"
   ],
   "note": ""
  },
  {
   "property": "C93",
   "status": "partial",
   "theorems": [
    "C93_static",
    "C93_moving_partial",
    "C93_moving_violation"
   ],
   "note": "Proved for proportional loads. For moving loads 'no collapse means no mechanism' is refuted: hinges formed within the sub-increments or at the first position are never tested."
  },
  {
   "property": "C94",
   "status": "partial",
   "theorems": [
    "C94_supports_partial",
    "C94_one_pin",
    "C94_hinges",
    "C94_negative_violation",
    "C94_spring_violation"
   ],
   "note": "Supports proved for restraints whose negative entries are -1 and vertical springs without rotational restraint; the other restraints are drawn wrongly (violations proved). Hinges for slender prismatic members."
  },
  {
   "property": "C95",
   "status": "partial",
   "theorems": [
    "C95_loads_partial",
    "C95_overhang_violation",
    "C95_beyond_violation",
    "C95_span_zero_violation"
   ],
   "note": "Proved when the loads are on spans of the beam and partial uniform loads do not overhang; otherwise refuted."
  },
  {
   "property": "C96",
   "status": "partial",
   "theorems": [
    "C96_names",
    "C96_places",
    "C96_senses",
    "C96_clamps",
    "C96_heights",
    "C96_sign_violation",
    "C96_hinge_violation",
    "C96_label_violation"
   ],
   "note": "Names, definitions and places proved; upward distributed loads are drawn as downward ones, a hinge over an inner pin or roller is not distinguished, labels after Z are not letters (violations proved). Rounding by :g not modelled."
  },
  {
   "property": "C97",
   "status": "partial",
   "theorems": [
    "C97_nodes_partial",
    "C97_small_violation",
    "C97_prescribed_violation"
   ],
   "note": "Exact for values above 1e-6 if displacements are prescribed at rigid supports only; both exceptions refuted."
  },
  {
   "property": "C98",
   "status": "partial",
   "theorems": [
    "C98_minimum_partial",
    "C98_only_minimum",
    "C98_shear_minimum_partial",
    "C98_shear_only_minimum"
   ],
   "note": "Prismatic beams, slender or shear-flexible; pinned-pinned members need balanced clamped end moments and shear-flexible members couples that cancel (otherwise no line fits the results, C91, C117)."
  },
  {
   "property": "C99",
   "status": "partial",
   "theorems": [
    "C99_energy_balance_partial",
    "C99_stiffening",
    "C99_point_load",
    "C99_shear_energy_balance_partial",
    "C99_shear_stiffening",
    "C99_shear_point_load"
   ],
   "note": "Prismatic beams, slender or shear-flexible, under loads for which there is an exact line (C91, C117)."
  },
  {
   "property": "C100",
   "status": "partial",
   "theorems": [
    "C100_reaction_partial",
    "C100_influence_partial",
    "C100_shear_reaction_partial",
    "C100_shear_influence_partial"
   ],
   "note": "Prismatic beams, slender or shear-flexible, under loads for which there is an exact line (for influence lines: on pinned-pinned members positions at the ends and the centre). The influence lines of internal forces are C109."
  },
  {
   "property": "C101",
   "status": "partial",
   "theorems": [
    "C101_built",
    "C101_rejected",
    "C101_all_spans",
    "C101_named",
    "C101_leftover_violation",
    "C101_cover_violation"
   ],
   "note": "Everything except two exceptions that are refuted: a rejected call by a new name leaves an empty case behind, and a length given without a start is ignored."
  },
  {
   "property": "C102",
   "status": "partial",
   "theorems": [
    "C102_positions_partial",
    "C102_collision_violation"
   ],
   "note": "Segment cases followed by any cases without own positions; segment cases added after another case collide with it (violation proved)."
  },
  {
   "property": "C103",
   "status": "partial",
   "theorems": [
    "C103_regions_partial",
    "C103_whole_spans",
    "C103_recorded_spans",
    "C103_negative_start_violation",
    "C103_trapez_violation",
    "C103_stale_spans_violation"
   ],
   "note": "Loads that start on their span and trapezoids with both or neither of start and length; the others and loads added later are refuted."
  },
  {
   "property": "C104",
   "status": "partial",
   "theorems": [
    "C104_analysis",
    "C104_completes",
    "C104_results_partial",
    "C104_stability_violation",
    "C104_padding_violation"
   ],
   "note": "Displacements, reactions, end forces and everything along the members except rotation and deflection at the two padding stations of each member. Refuted: those two values, and the stability check, depend on the units."
  },
  {
   "property": "C105",
   "status": "partial",
   "theorems": [
    "C105_analysis",
    "C105_completes",
    "C105_results_partial",
    "C105_deflection_violation",
    "C105_shear_violation"
   ],
   "note": "Displacements, reactions and end forces of the nodes and members; stations, moments and shears along the members without shear points. Refuted: rotations and deflections along the members (integrated from the left), and the shear at a station exactly at a point force. Not covered: point forces on shear-flexible members of variable section."
  },
  {
   "property": "C106",
   "status": "proved",
   "theorems": [
    "C106_frequencies",
    "C106_unique",
    "C106_rayleigh",
    "C106_positive"
   ],
   "note": "A support counts as rigid if its restraint is -1, as the modal analysis reads it (C70 records the other negative values). `solveModal_completes` shows that the analyses compared exist."
  },
  {
   "property": "C107",
   "status": "partial",
   "theorems": [
    "C107_period",
    "C107_nodes",
    "C107_shape_partial",
    "C107_scale",
    "C107_flat_violation"
   ],
   "note": "Modes that move some node vertically. Refuted for the others: a span analysed as one element has mode shapes that are zero."
  },
  {
   "property": "C108",
   "status": "partial",
   "theorems": [
    "C108_position",
    "C108_visited",
    "C108_envelope",
    "C108_load_model",
    "C108_train_partial"
   ],
   "note": "Runs without shear points, bridges without foundation. Trains of vehicles without coincident axles and with one gap fewer than vehicles (the exceptions are those of C57)."
  },
  {
   "property": "C109",
   "status": "partial",
   "theorems": [
    "C109_exists_partial",
    "C109_internal_partial",
    "C109_influence_partial",
    "C109_shear_exists_partial",
    "C109_shear_internal_partial",
    "C109_shear_influence_partial"
   ],
   "note": "Prismatic beams, slender or shear-flexible, under loads for which there is an exact line (for influence lines: on pinned-pinned members positions at the ends and the centre), C91, C117."
  },
  {
   "property": "C110",
   "status": "partial",
   "theorems": [
    "C110_equilibrium"
   ],
   "note": "Displacements prescribed at rigid supports only (C18), moments without pinned-pinned members (C19), and partial UDLs clear of the tolerances of the mesh (C64); the exceptions are refuted there."
  },
  {
   "property": "C111",
   "status": "proved",
   "theorems": [
    "C111_mesh_solution",
    "C111_unique"
   ],
   "note": ""
  },
  {
   "property": "C112",
   "status": "proved",
   "theorems": [
    "C112_held",
    "C112_completes"
   ],
   "note": "`C112_completes` for beams without prescribed displacements."
  },
  {
   "property": "C113",
   "status": "proved",
   "theorems": [
    "C113_superposition",
    "C113_scaling"
   ],
   "note": ""
  },
  {
   "property": "C114",
   "status": "partial",
   "theorems": [
    "C114_curve_partial",
    "C114_foundation_violation"
   ],
   "note": "Refuted for foundation spans: the closure points between the pieces of their mesh stay in the curve, so a floating span is drawn with lines to zero."
  },
  {
   "property": "C115",
   "status": "partial",
   "theorems": [
    "C115_cache_partial",
    "C115_queries",
    "C115_edit_violation"
   ],
   "note": "Refuted for programs that assign to entries of the public lists `mbr_kf`, `mbr_EIs`, `mbr_lengths`, which take effect for spans without foundation only."
  },
  {
   "property": "C116",
   "status": "proved",
   "theorems": [
    "C116_reciprocity",
    "C116_maxwell"
   ],
   "note": "On members without foundation the loads are counted by their equivalent end forces, as in C22."
  },
  {
   "property": "C117",
   "status": "partial",
   "theorems": [
    "C117_exact_partial",
    "C117_exact_iff",
    "C117_unique",
    "C117_well_posed",
    "C117_reported",
    "C117_couple_violation",
    "C117_pinned_violation"
   ],
   "note": "`C117_exact_iff`: lines fit exactly if the clamped end moments balance on each pinned-pinned member and the couples balance on each other shear-flexible member; otherwise the property is refuted. Tapered members are not covered."
  },
  {
   "property": "C118",
   "status": "partial",
   "theorems": [
    "C118_convergence_partial"
   ],
   "note": "Whenever lines of the continuous problem fit the results, which is exactly when the loads balance (C117_exact_iff); prismatic members."
  },
  {
   "property": "C119",
   "status": "partial",
   "theorems": [
    "C119_span_partial",
    "C119_support_right_partial",
    "C119_support_left_partial",
    "C119_influence_partial",
    "C119_shear_violation"
   ],
   "note": "Slender prismatic spans with supports at every node. Spans soft in shear do not alternate (violation proved, a property of such structures). Outside the middle third the line of a span section can change sign within its span."
  },
  {
   "property": "C120",
   "status": "partial",
   "theorems": [
    "C120_sagging_partial",
    "C120_worst",
    "C120_hogging_partial",
    "C120_hogging_violation",
    "C120_uplift_violation"
   ],
   "note": "Proved for sagging in the middle thirds, and for hogging at the end supports and over supports j <= 2 with at most two spans to the right; refuted for hogging over inner supports of four spans (`C120_hogging_violation`; `C120_worst` gives the governing arrangement) and for positive moments over supports (`C120_uplift_violation`)."
  },
  {
   "property": "C121",
   "status": "partial",
   "theorems": [
    "C121_nested_partial",
    "C121_nested_analysis_partial"
   ],
   "note": "Under the conditions of C36: no prescribed displacements (or factors summing to one) and, for rotations and deflections, no imposed curvature on released members."
  },
  {
   "property": "C122",
   "status": "partial",
   "theorems": [
    "C122_mapping",
    "C122_sequence",
    "C122_loads",
    "C122_negative_index_violation",
    "C122_target_violation"
   ],
   "note": "Proved for names, positions from the start and sequences; refuted for positions from the end (`C122_negative_index_violation`) and for the meaning of a target combination after a case has changed (`C122_target_violation`)."
  },
  {
   "property": "C123",
   "status": "proved",
   "theorems": [
    "C123_envelope",
    "C123_three_envelopes"
   ],
   "note": ""
  },
  {
   "property": "C124",
   "status": "partial",
   "theorems": [
    "C124_exact_partial",
    "C124_unique",
    "C124_compatible",
    "C124_no_reactions",
    "C124_reported",
    "C124_convergence",
    "C124_shear_exact_partial",
    "C124_shear_unique",
    "C124_shear_compatible",
    "C124_shear_reported",
    "C124_shear_convergence_partial"
   ],
   "note": "Prismatic members, slender or shear-flexible, and curvatures of degree at most two (beyond that the code's Simpson integration is approximate; C146 bounds the distance from the continuous solution for every degree). Pinned-pinned members need balanced fixed-end moments and shear-flexible members couples that cancel (false otherwise, C91, C117)."
  },
  {
   "property": "C125",
   "status": "partial",
   "theorems": [
    "C125_points",
    "C125_outlines",
    "C125_ends",
    "C125_arrows_partial",
    "C125_couples",
    "C125_magnitudes",
    "C125_dimensions",
    "C125_completes",
    "C125_sign_change_violation",
    "C125_label_violation",
    "C125_unit_violation"
   ],
   "note": "Arrows inside a distributed load that changes sign may point the wrong way, equal and opposite end intensities are labelled as a uniform load, and lengths are labelled m in every unit system (violations proved). End arrows need a beam of at least 1e-7."
  },
  {
   "property": "C126",
   "status": "partial",
   "theorems": [
    "C126_view_partial",
    "C126_bare_partial",
    "C126_fixed_violation",
    "C126_bare_violation",
    "C126_haunch_violation",
    "C126_overhang_violation"
   ],
   "note": "With supports shown: loads on the beam and some load or no fixed support. Without supports: equal constant rigidities, no extents and no dimensions. Fixed supports are cut off when no load is drawn; without supports, extents of partial loads and non-prismatic profiles are; loads that overhang the beam run out of the axes (violations proved)."
  },
  {
   "property": "C127",
   "status": "partial",
   "theorems": [
    "C127_forces_partial",
    "C127_couples",
    "C127_completes",
    "C127_couple_violation"
   ],
   "note": "Forces above 1e-6 at degrees of freedom where displacements are only prescribed at supports (C97); every couple's arc is cut off at the top (violation proved)."
  },
  {
   "property": "C128",
   "status": "proved",
   "theorems": [
    "C128_round"
   ],
   "note": ""
  },
  {
   "property": "C129",
   "status": "partial",
   "theorems": [
    "C129_depths",
    "C129_prismatic_partial",
    "C129_strip_violation"
   ],
   "note": "The second half for members of constant rigidity; false for a variable section, which is sampled at 41 stations (violation proved)."
  },
  {
   "property": "C130",
   "status": "partial",
   "theorems": [
    "C130_frames",
    "C130_final",
    "C130_static_violation"
   ],
   "note": "Frames, curves, bands and limits in full. The last band is the envelope of the run except that an Envelopes object also counts zero, so with permanent loads the band does not grow to the envelope as documented (violation proved)."
  },
  {
   "property": "C131",
   "status": "partial",
   "theorems": [
    "C131_axles",
    "C131_view_partial",
    "C131_completes",
    "C131_uplift_violation"
   ],
   "note": "The axle loads in full. View: for permanent loads on the beam with no upward point load; the label of every upward permanent point load is placed below the axes (violation proved)."
  },
  {
   "property": "C132",
   "status": "partial",
   "theorems": [
    "C132_groups",
    "C132_exact",
    "C132_close_violation"
   ],
   "note": "Each weight within np.isclose of the one shown; exact if no two different weights are close. Close weights are merged (violation proved)."
  },
  {
   "property": "C133",
   "status": "partial",
   "theorems": [
    "C133_history_partial",
    "C133_bars",
    "C133_blank_violation",
    "C133_blank_witness",
    "C133_positions_violation"
   ],
   "note": "For the envelope of the last run. An envelope of another run with as many positions is drawn over the wrong positions, and a merged envelope whose history was blanked is drawn as zeros (violations proved)."
  },
  {
   "property": "C134",
   "status": "proved",
   "theorems": [
    "C134_determinate",
    "C134_diagrams",
    "C134_no_self_stress",
    "C134_stiffness_factor",
    "C134_indeterminate_witness"
   ],
   "note": ""
  },
  {
   "property": "C135",
   "status": "partial",
   "theorems": [
    "C135_positions",
    "C135_refine_partial",
    "C135_refine_violation",
    "C135_moment_partial",
    "C135_shear_partial"
   ],
   "note": "Refinement: for runs that do not go beyond their end; the position count is rounded, so a run can end up to half a step beyond pos_end, and then a finer step can give a smaller envelope (violation proved). Convergence: slender prismatic members, none pinned at both ends, rigid vertical supports at both ends; for the shear the step depends on the position."
  },
  {
   "property": "C136",
   "status": "proved",
   "theorems": [
    "C136_system",
    "C136_analyze",
    "C136_run",
    "C136_influence",
    "C136_adequate"
   ],
   "note": ""
  },
  {
   "property": "C137",
   "status": "proved",
   "theorems": [
    "C137_results",
    "C137_diagram",
    "C137_backends_agree",
    "C137_overlay",
    "C137_exports",
    "C137_envelope_exports",
    "C137_envelope_exported"
   ],
   "note": ""
  },
  {
   "property": "C138",
   "status": "partial",
   "theorems": [
    "C138_envelope",
    "C138_each_partial",
    "C138_each_violation",
    "C138_coincidents_partial",
    "C138_coincidents_violation"
   ],
   "note": "The extremes: every envelope. Single analyses and coincident values: envelopes made from results; after a union or sum only the analyses of the first envelope are drawn, and coincident values of a sum are drawn as zero (violations proved)."
  },
  {
   "property": "C139",
   "status": "partial",
   "theorems": [
    "C139_set",
    "C139_default",
    "C139_resolve",
    "C139_default_usable",
    "C139_empty_violation"
   ],
   "note": "The empty name is refused by set_backend but accepted for one call, where it means the default (violation proved)."
  },
  {
   "property": "C140",
   "status": "partial",
   "theorems": [
    "C140_bound",
    "C140_static",
    "C140_collapse_partial",
    "C140_determinate_violation"
   ],
   "note": "A collapse factor is only an upper limit of the admissible factors if the final moments reach Mp with the right sign at all hinges of a motion. A cantilever is never found to collapse, so the reported factor exceeds every admissible one (violation proved)."
  },
  {
   "property": "C141",
   "status": "partial",
   "theorems": [
    "C141_moments",
    "C141_sign_partial",
    "C141_sign_violation",
    "C141_mirror_violation",
    "C141_history",
    "C141_state",
    "C141_collapse",
    "C141_supports_partial",
    "C141_supports_violation"
   ],
   "note": "Signs: runs before yield, all nodes but the first, where the sign is reversed (violation proved). Supports are drawn at every end of a span, also at a free end (violation proved)."
  },
  {
   "property": "C142",
   "status": "partial",
   "theorems": [
    "C142_static_partial",
    "C142_ratios_partial",
    "C142_sign_violation",
    "C142_sprung_violation"
   ],
   "note": "plot_static: all but the sign of the moment, which is reversed on an axis that is not turned over (violation proved). plot_ratios: beams with at least one reaction; for others it raises ValueError (violation proved)."
  },
  {
   "property": "C143",
   "status": "partial",
   "theorems": [
    "C143_patterns_partial",
    "C143_response",
    "C143_response_bare",
    "C143_response_between",
    "C143_il",
    "C143_modes",
    "C143_modes_supports"
   ],
   "note": "Strips of load patterns under the conditions of C103 (distributed loads that start on their spans); the rest in full."
  },
  {
   "property": "C144",
   "status": "proved",
   "theorems": [
    "C144_simpson",
    "C144_fixed_end_moments",
    "C144_primary_rotations"
   ],
   "note": "In exact arithmetic."
  },
  {
   "property": "C145",
   "status": "proved",
   "theorems": [
    "C145_well_posed"
   ],
   "note": "In exact arithmetic; the constant is not computed."
  },
  {
   "property": "C146",
   "status": "partial",
   "theorems": [
    "C146_any_degree_partial",
    "C146_shear_partial",
    "C146_reported_partial"
   ],
   "note": "Prismatic members, slender or shear-flexible. Pinned-pinned members need balanced fixed-end moments and shear-flexible members couples that cancel (false otherwise, C91, C117); tapered and foundation-supported members are missing."
  },
  {
   "property": "C147",
   "status": "proved",
   "theorems": [
    "C147_vehicle",
    "C147_section",
    "C147_tendon"
   ],
   "note": "Sections of segments that follow one another exactly; drape points up to 1e-9 right of a joint of an ordered profile continue the piece before it."
  },
  {
   "property": "C148",
   "status": "proved",
   "theorems": [
    "C148_bounds",
    "C148_converges",
    "C148_simple_span"
   ],
   "note": "Euler-Bernoulli members, as the code has them; in exact arithmetic."
  },
  {
   "property": "C149",
   "status": "proved",
   "theorems": [
    "C149_energy",
    "C149_deflection",
    "C149_bound",
    "C149_smooth",
    "C149_exists"
   ],
   "note": "Loads clear of the element ends as in C112 (LoadsClear); members without a foundation enter by their stiffness and fixed-end forces (C91)."
  },
  {
   "property": "C150",
   "status": "partial",
   "theorems": [
    "C150_completes",
    "C150_float_violation"
   ],
   "note": "Exactly when a line is returned, for every beam that can be analysed. Refuted for restraints of which one is written as a floating-point number (-1.0, or the stiffness of a spring): the reaction lines then raise IndexError."
  },
  {
   "property": "C151",
   "status": "partial",
   "theorems": [
    "C151_tapered_partial",
    "C151_exists_unique",
    "C151_converges_partial",
    "C151_reported_partial",
    "C151_sections",
    "C151_sections_variation"
   ],
   "note": "Slender members, none pinned at both ends (false for those with unbalanced loads, C91), mechanical loads. The error is stated by the integration errors (C144 bounds those of the primary rotations). Sections: segments that abut exactly, pieces positive up to 1e-12 beyond their ends (C53 shows what happens otherwise), span no longer than the section."
  },
  {
   "property": "C152",
   "status": "proved",
   "theorems": [
    "C152_flexibility",
    "C152_shear",
    "C152_stepped",
    "C152_haunch",
    "C152_flexErr",
    "C152_rotErr"
   ],
   "note": "The Gauss table is an input with a stated contract (positive weights, exact powers); a table that meets it exists (`leg_exists`). Segments abut exactly; the Gauss points lie more than 1e-12 beyond the joints. The coefficients numpy fits are as many as the degree plus one at most."
  },
  {
   "property": "C153",
   "status": "proved",
   "theorems": [
    "C153_member",
    "C153_settlement",
    "C153_one_settlement",
    "C153_loads"
   ],
   "note": "Members without elastic foundation; variable sections compared at the same integration points. In exact arithmetic."
  }
 ]
}