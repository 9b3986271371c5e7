# Formal model of pycba

The model covers the numerical core of `ccaprani/pycba` (`/repo/src/pycba`). Properties are in `properties.jsonl`, the
claims with their theorem names in `MANIFEST.json`, mutation experiments in `seeded/LOG.jsonl`.

## Trusted base

* The Lean 4 kernel. Every theorem depends on at most `propext`, `Classical.choice` and `Quot.sound`; no axiom is added
  (`#print axioms` shows nothing else, and `vcheck` repeats the check).
* The definitions of the statements themselves: the specification predicates beside each property and Mathlib's
  definitions of ordered fields, matrices, finite sums, derivatives and interval integrals.
* That the model is what the code does. Each definition cites file and lines; nothing has been run, so this is by reading.
* Numbers: Python floats are elements of a linearly ordered field (`K` in the theorems, ℚ in witnesses, ℝ where a
  derivative, integral, square root or eigenvalue occurs). Rounding, overflow, NaN and signed zeros are not modelled.
  Tolerances such as `1e-9` in branch conditions *are* kept as exact constants.
* Division by zero: where Python would raise (`ZeroDivisionError`, or `round` of an infinity) the model has an explicit
  error; where NumPy would return `inf`/`nan` the theorems ask for the divisor to be nonzero, or say what the model does.
* Exceptions are values (`Except PyErr`). The exception class is modelled, the message is not.

### Routines that are parameters

| Routine | In the model | What the theorems assume about it |
|---|---|---|
| `numpy.linalg.solve` | `Solver` | `Solver.Sound`: a returned vector satisfies the system (several theorems need nothing) |
| `numpy.linalg.eigvalsh` | `Eigvalsh` | exactly the eigenvalues of a symmetric matrix; `realEigs_sound` shows one exists |
| `scipy.linalg.eigh` | `Eigh` | eigenpairs, ascending, orthogonal |
| `numpy.linalg.inv` | `Inverter`; 1×1 and 2×2 written out | a returned matrix is an inverse |
| `numpy.linalg.matrix_rank` | `deficient` | only where stated (`RankComplete`) |
| `numpy.argsort` | `Argsort` | a permutation that sorts; ties free |
| `numpy.polyfit` | `Fit` | nothing, or interpolation where stated |
| `leggauss` | `Leg` | exactness for the polynomials used |
| `float(str)` | `toFloat` | nothing, or that it reads the rendered lengths |
| `simpson`, `cumulative_trapezoid`, `interp`, `unique`, `linspace`, `round` | written out | – |

## Not modelled

Text layout and styling of plots, colours, hover texts and figure layout, printing and LaTeX/HTML output, docstrings; the number formats
of `UnitSystem`;
`Beam` members on a foundation combined with the linear pipeline theorems (they have their own modules).

## Simplifications

* Span numbers and type codes in a load matrix are integers (Python applies `int`).
* `str.upper`/`lower` act on ASCII letters only.
* `deepcopy` is the identity, because Lean values are immutable; aliasing that matters is modelled explicitly
  (`BridgeState.aliased`, in-place restraint edits in `AOp.writeR`).
* Arrays are functions on `ℕ` with an explicit length.
* Results along a member are taken for members without foundation; `FoundEl.recover` is separate.

## Findings: where the code does not have the property

Each is a theorem with a concrete witness (or an exact characterisation) in the model; the positive part is proved beside it.

| Property | Where | What happens | Theorem |
|---|---|---|---|
| C02 | `load.py` 700-711 | `LoadMaMb` reports the stated end moments as fixed-end moments; as a span load they do not clamp the ends | `C02_end_moments_violation` |
| C03, C04, C19, C49 | `load.py` 124-126 | a pinned-pinned member: the end-moment couple is added with the wrong sign, so its released shears do not balance an unsymmetric load | `C03_pinned_pinned_violation`, `C03_pinned_pinned_iff`, `C04_…`, `C19_…`, `C49_pinned_pinned_violation` |
| C08 | `load.py` 357-358 | `LoadPUDL.get_cnl` returns a plain list for a load starting beyond the span, and every caller then raises `AttributeError` | `C08_pudl_offspan_raises` |
| C08 | `load.py` 400-425 | the span diagrams of a partial UDL are not clipped although its fixed-end forces are | `C08_pudl_diagram_violation` |
| C18 | `analysis.py` 773-784 | a prescribed displacement at a free or sprung degree of freedom has a holding force that is reported nowhere | `C18_prescribed_without_support` |
| C26 | `beam.py` 277-323 | writing into `beam.restraints[i]` bypasses the stability cache: a mechanism passes as checked | `C26_in_place_edit_violation` |
| C32 | `results.py` 700-708 | a reaction history blanked by one merge is refilled by the next, with a partial history | `C32_history_reappears` |
| C36 | `load_cases.py` 670-717 | with prescribed displacements, or imposed curvature on released members, `combine` differs from `analyze_combination` | `C36_settlement_violation`, `C36_curvature_violation` |
| C41 | `load_cases.py` 862-871 | the elastic foundation of the base beam is dropped from load case models | `C41_foundation_violation` |
| C45 | `utils.py` 195-226 | text before the first and after the last terminal of a beam string is ignored | `C45_junk`, `C45_junk_violation` |
| C46 | `beam.py` 227-243, 116-153 | a rejected member type leaves the span half added; `add_span` does not extend the restraints; a short list of types drops spans | `C46_bad_type_violation`, `C46_extend_violation`, `C46_short_types_violation` |
| C48 | `load.py` 1083-1118 | rows with an unknown type code, or a span outside the beam, are ignored | `C48_unknown_type_violation`, `C48_span_violation` |
| C51 | `results.py` 317-323 | `at` returns the padding zero at the start of the beam and interpolates from it after every support | `C51_start_violation`, `C51_support_violation` |
| C53 | `section.py` 191-399 | joins within the tolerance leave unassigned stations; fitted polynomials and extrapolated linear pieces can be negative | `C53_gap_violation`, `C53_poly_violation`, `C53_extrapolation_violation` |
| C55 | `bridge.py` 329-337 | lane loads shorter than 1e-9 are dropped (unit dependent) | `C55_sliver_violation`, `C55_error` |
| C56 | `vehicle.py` 74-76 | a copying reversal after a reversal in place does not reverse | `C56_mixed_violation` |
| C57 | `vehicle.py` 197-213 | the documented single spacing is refused for three or more vehicles; coincident axles are mistaken for gaps; reversal in place is ignored | `C57_equal_spacing_violation`, `C57_coincident_violation`, `C57_reversed_violation` |
| C59 | `bridge.py` 637-666 | positions are collected with `np.isclose`, so positions whose extreme is smaller are reported too | `C59_position_violation` |
| C61 | `inf_lines.py` 73-95 | `create_ils` empties the results but not the positions | `C61_recreate_violation` |
| C62 | `prestress.py` 191-211 | the compound parabola is kinked at the right contraflexure point unless `b = c` or `e_mid = e_right` | `C62_contraflexure_violation` |
| C62 | `prestress.py` 121-136, 152-181 | a cantilever parabola ignores `e_mid`; the documented ordering of the compound parabola is not the one checked | `C62_cantilever_violation`, `C62_ordering_violation` |
| C63 | `prestress.py` 55, 372-407 | curvature, kinks and eccentricities up to 1e-9 are dropped in whatever unit is used | `C63_small_curvature_violation` |
| C64 | `foundation.py` 178-187 | partial UDLs are snapped to mesh nodes with `np.isclose`, changing the total load | `C64_load_violation`, `C64_load_error` |
| C65 | `nonlinear.py` 1078-1102 | the demand at the end of the first position of a moving load is never assessed | `C65_first_position_violation` |
| C67 | `nonlinear.py` 516, 637 | the first element of every later span carries the rigidity of the span before | `C67_rigidity_violation` |
| C68 | `nonlinear.py` 718-756 | load types other than UDL and point load, and points off the beam, are dropped | `C68_types_violation` |
| C70 | `modal.py` 215-260 | prescribed displacements, restraints below zero other than -1 and elastic foundations are seen by the static analysis but not by `solve_modal` | `C70_prescribed_violated`, `C70_negative_restraint_violated`, `C70_foundation_violated` |
| C71 | `units.py` 181-182 | a doubled inner space is not collapsed although the comment says so | `C71_double_space` |
| C72 | `beam.py` 797-867 | the zeroed end stations enter Simpson's rule at every breakpoint, so dividing a uniform member into two segments changes its fixed-end forces | `C72_two_segments_violation` |
| C73 | `bridge.py` 118-119, 173-174 | capturing the static loads again after a run includes the vehicle; loads added before the first run are captured through the shared list | `C73_recapture_violation`, `C73_alias_violation` |
| C74 | `types.py` 61-69 | fractional member type codes are truncated | `C74_fraction_violation` |
| C76 | `beam.py` 1578-1605 | an applied couple on a shear-flexible member leaves the end displaced by `m / GAv` | `C76_couple_violation` |
| C79 | `results.py` 291-292 | the padding stations keep the simply supported rotation and deflection | `C79_padding_violation` |
| C80 | `load_cases.py` 1135-1151 | segments ending within 1e-9 (or 1e-5 relative) of a support are snapped to it | `C80_segment_violation`, `C80_segment_error` |
| C81 | `foundation.py` 231-235 | moments along a foundation member omit the consistent nodal moments of the foundation | `C81_floating_violation` |
| C84 | `nonlinear.py` 523-530 | spring supports are ignored by the nonlinear analysis | `C84_springs_violation` |
| C85 | `nonlinear.py` 844-882 | single-hinge mechanisms are missed; hinges near each other are merged and stable structures reported as collapsed | `C85_single_hinge_violation`, `C85_false_collapse_violation`, `C85_three_spans_violation` |
| C86 | `prestress.py` 356-407 | a tendon that stops short is anchored in the outermost span, a step of force or eccentricity at a support gives no couple, and a free end without tendon raises `UnboundLocalError` | `C86_short_tendon_violation`, `C86_force_step_violation`, `C86_no_tendon_violation` |
| C87 | `vehicle.py` 257-282 | the "68.5 t" B-double weighs 68 t; the "45 t" semi-trailer weighs 53 t because two axles of its tri-axle group carry 22.5/2 t and the third 22.5/3 t | `C87_abag_violation` |
| C88 | `results.py` 199-200, `bridge.py` 707-715 | a shear point at a support gets no pair of stations, and its "left" and "right" shears are read one grid step away | `C88_support_violation` |
| C89 | `bridge.py` 415-427, 547-557 | with `step=0` the exception is raised after the shear points are applied but before the `try`; they stay with the analysis object | `C89_leak_violation` |
| C89 | `bridge.py` 249, 704 | `static_vehicle` replaces the sections that `critical_values` reports for an earlier run | `C89_report_violation` |
| C90 | `bridge.py` 763 | only the numbers of stations and supports are compared: envelopes of different bridges are accepted | `C90_compatibility_violation` |
| C91 | `load.py` 105-132 | with a pinned-pinned member whose loads have unbalanced clamped end moments the reported end forces violate moment equilibrium of the member, so they belong to no elastic line | `C91_pinned_pinned_violation` |
| C93 | `nonlinear.py` 1078-1086, 1112-1120 | `analyze_moving` ignores the result of `_update_R` in the sub-increments and at the first position, so hinges that form there never lead to a mechanism test: a beam that has become a mechanism is driven on and reported as not collapsed | `C93_moving_violation` |
| C94 | `render.py` 195-212 | a restraint that is negative but not -1 is rigid in the analysis and is not drawn | `C94_negative_violation` |
| C94 | `render.py` 206-207 | a vertical spring at a node whose rotation is held or sprung is drawn as a bare vertical spring | `C94_spring_violation` |
| C95 | `render.py` 243-246 | a partial uniform load that overhangs its span is drawn on the next span, which the analysis does not load (trapezoidal loads are clipped) | `C95_overhang_violation` |
| C95 | `render.py` 239-240 | a load on a span beyond the beam is ignored by the analysis but raises `IndexError` in the plotter; a load on span 0 is ignored by the analysis and drawn beyond the right end | `C95_beyond_violation`, `C95_span_zero_violation` |
| C96 | `render.py` 1100-1102 | TikZ draws an upward distributed load exactly as a downward one | `C96_sign_violation` |
| C96 | `render.py` 1061-1081 | TikZ draws a hinge over an inner pin or roller exactly as continuity | `C96_hinge_violation` |
| C96 | `render.py` 970 | node labels are `chr(65 + node)`: node 27 is labelled with a backslash | `C96_label_violation` |
| C97 | `analysis.py` 1058-1060 | reactions of at most 1e-6 are dropped whatever the units; the force that imposes a displacement at an unsupported degree of freedom is not shown | `C97_small_violation`, `C97_prescribed_violation` |
| C101 | `load_cases.py` 461-544 | a call by a new case name that is rejected (`ValueError`) leaves an empty case behind; the name is then taken | `C101_leftover_violation` |
| C101 | `analysis.py` 398-403, `load_cases.py` 133-139 | a trapezoidal load with a length and no start: the length is ignored and the whole span is loaded | `C101_cover_violation` |
| C102 | `load_cases.py` 338-342 | default identifiers `1 << i` collide with the stored ones of segment cases added after another case | `C102_collision_violation` |
| C103 | `load_cases.py` 819-822 | a patch that starts before its span is shown too long: the start is clipped, the length is not reduced | `C103_negative_start_violation` |
| C103 | `load_cases.py` 808-817 | a trapezoidal load with a start but no length, which the analysis accepts, is not shown | `C103_trapez_violation` |
| C103 | `load_cases.py` 446-459 | the loaded spans recorded by `add_span_udl` go stale when a load on another span is added | `C103_stale_spans_violation` |
| C104 | `analysis.py` 503-561 | the stability check compares eigenvalues of a matrix with entries of different units: two clamped spans of 2 m pass in metres and are rejected as a mechanism in micrometres | `C104_stability_violation` |
| C104 | `results.py` 219-234, 291-294 | the rotation and deflection at the padding stations are not divided by `EI` and change with the units of force and length | `C104_padding_violation` |
| C105 | `results.py` 261-292 | a symmetric span under a symmetric load is reported with a deflection at the right support (zero at the left) and unequal end rotations: both are integrated from the left by the trapezoidal rule | `C105_deflection_violation` |
| C105 | `load.py` 83, 312; `results.py` 18-28 | at a station exactly at a point force the shear to its left is reported, so a symmetric span has a shear at midspan (the shear points of `results.py` 191-204 are a partial remedy) | `C105_shear_violation` |
| C107 | `modal.py` 86-99 | a simply supported span analysed with `nseg=1` has two modes (rotations only) whose mode shape, documented as normalised to unit amplitude, is zero at every node | `C107_flat_violation` |
| C114 | `results.py` 325-343; `foundation.py` 104-110, 233-236 | `deflection_curve` documents that it drops the closure points; a foundation member concatenates the results of its pieces with their closure points, and only the first and last are dropped, so the curve of a span floating at `v` contains points with deflection 0 at the same place as points with deflection `v` | `C114_foundation_violation` |
| C115 | `beam.py` 101-103, 243, 687-689 | the cache of foundation elements is emptied by `add_span` only: `beam.mbr_kf[0] = k` after an analysis changes nothing in the next one, while the same assignment to a span without foundation takes effect | `C115_edit_violation` |
| C117 | `beam.py` 1582-1605 | the fixed-end moments of a shear-flexible member assume that the shears of its loads do no net shear displacement; for couples of nonzero sum they do, so the fixed-end forces do not belong to any line of the shear-flexible member | `C117_couple_violation` |
| C120 | `pattern.py` 154-164 | the patterns for maximum support hogging load only the two adjacent spans; every other span from there also adds hogging, so from four spans on the reported hogging moments over inner supports are too small (by 2.6 % in the case shown) | `C120_hogging_violation` |
| C120 | `pattern.py` 154-195 | no pattern produces the greatest (sagging) moment over an inner support; with three spans the live load on span 3 gives a positive moment over support 1 where the envelope has 0 | `C120_uplift_violation` |
| C122 | `load_cases.py` 607-614 | a combination by a position from the end (`-1`) silently moves to the new last case when a case is added | `C122_negative_index_violation` |
| C122 | `load_cases.py` 159-175, 1084-1103 | a target combination is bound to the live collection with the factors of the time it was made: after `add_load`/`set` it silently applies a selection that is no longer the extreme one (moment 3 instead of 12 in the case shown), and after adding any case every argument-free use of it raises `ValueError` | `C122_target_violation` |
| C125 | `render.py` 757-768 | the arrows of a distributed load that changes sign are drawn all one way: from -1 to 3 over 16, the arrow at 5 points up although the load there is 1/4 down | `C125_sign_change_violation` |
| C125 | `render.py` 770-783 | a load from -3 to 3 is labelled "3", as the uniform load 3 | `C125_label_violation` |
| C125 | `render.py` 836-879 | dimensions and load extents are labelled "m" in every unit system (the TikZ output uses the unit of length) | `C125_unit_violation` |
| C126 | `render.py` 419-437, 603-617 | drawn without loads, the top of every fixed support is cut off (wall to one support height and more, axes to 0.9) | `C126_fixed_violation` |
| C126 | `render.py` 425-434, 858-879 | with `show_supports=False` the extents of partial loads are drawn below the axes | `C126_bare_violation` |
| C126 | `render.py` 347-356, 425-434 | with `show_supports=False` the lower part of every non-prismatic profile is cut off (depth 0.6 support heights, axes to 0.3) | `C126_haunch_violation` |
| C126 | `render.py` 437 | a partial uniform load that overhangs the end of the beam runs out of the axes | `C126_overhang_violation` |
| C127 | `analysis.py` 1063-1110, `render.py` 505-516 | `plot_reactions` and the reaction panel of `plot_results` lay the axes out without loads and extend them only downwards: the arc of every couple (radius 1.2 support heights) is cut off at 0.9 | `C127_couple_violation` |
| C129 | `render.py` 534-539 | a variable section is sampled at 41 stations: a stiff strip between two of them is not drawn, and the beam looks prismatic | `C129_strip_violation` |
| C130 | `bridge.py` 1051-1056 | the animated band does not "grow to the full traverse envelope" when there are permanent loads: `Envelopes` also counts the value zero, the band does not | `C130_static_violation` |
| C131 | `bridge.py` 969 | with an upward permanent point load, its label (and for the larger loads its arrow) is placed below the fixed limit of the deck axes | `C131_uplift_violation` |
| C132 | `bridge.py` 1005 | the caption merges neighbouring axles whose weights are within `np.isclose`, also when they differ, and then disagrees with the total beside it; the grouping depends on the order | `C132_close_violation` |
| C133 | `bridge.py` 1197-1211 | `plot_envelopes` draws the envelope of an earlier run over the positions of the last run if both have the same number of positions | `C133_positions_violation` |
| C133 | `bridge.py` 1197, `results.py` 702-708 | after `augment` with an envelope of another number of results the blanked history keeps its shape, so `plot_envelopes` draws zeros and marks zero as the governing reaction instead of falling back to the bars | `C133_blank_violation` |
| C135 | `bridge.py` 424-431 | the number of positions is rounded, so a run can visit a position up to half a step beyond `pos_end`; refining the step can then make the envelope smaller | `C135_refine_violation` |
| C138 | `results.py` 605-615, 967-970 | `plot(each=True)` of `a | b` or `a + b` draws the single analyses of `a` only, although those of `b` may govern | `C138_each_violation` |
| C138 | `results.py` 531-563, 710-754, 974-1069 | `plot_coincidents` of `a + b` draws the coincident effects of all extremes as zero | `C138_coincidents_violation` |
| C139 | `plotting.py` 65-70 | `set_backend("")` raises ValueError but `backend=""` silently uses the default | `C139_empty_violation` |
| C140 | `nonlinear.py` 864-882 | a mechanism needs two hinges, so a determinate beam (cantilever) is loaded past its plastic limit and reported as not collapsed | `C140_determinate_violation` |
| C141 | `nonlinear.py` 780-782, 791-793 | the moment at the first node has the opposite sign to that at all others: mirrored cantilevers report opposite moments | `C141_sign_violation`, `C141_mirror_violation` |
| C141 | `nonlinear.py` 636, 164-184, 376-387 | supports are drawn at every end of a span, also at a free one | `C141_supports_violation` |
| C142 | `bridge.py` 855-870 | `plot_static` reverses the sign of the moment instead of turning the axis over, so a sagging moment of 3/2 reads -3/2 | `C142_sign_violation` |
| C142 | `bridge.py` 1283-1289 | `plot_ratios` raises ValueError for beams on springs or soil only, because it asks for the key `Rmax0` | `C142_sprung_violation` |
| C119 | `beam.py` 1270-1328 | for spans soft in shear the signs of influence lines of moments do not alternate (a property of such structures, not a bug) | `C119_shear_violation` |
| C150 | `inf_lines.py` 130-133 | with one restraint written as a float (`-1.0`, or a spring stiffness) `idx_mask` is a float array and the influence lines of reactions raise IndexError | `C150_float_violation` |

## Properties

Status `partial` means: the part stated by the theorems is proved, the note says what is missing or false.

| Id | Title | Modelled | How proved | Status | Note |
|---|---|---|---|---|---|
| C01 | Fixed-end forces are in static equilibrium with the load | `get_cnl` of all load classes (`load.py`), branch by branch | resultants specified by interval integrals of the load intensity; field identities per class | proved |  |
| C02 | Fixed-end forces are those of a clamped beam | `get_cnl`, simply supported moment diagrams | the end rotations of the clamped member as interval integrals of the moment diagram | partial | All mechanical loads and imposed curvature up to degree two (Simpson is inexact beyond; C144 bounds its error for every degree); LoadMaMb states its end moments itself, so the statement fails for it (proved). |
| C03 | Released-end forces stay in equilibrium with the load | `Load.get_ref`, release of shear-flexible and variable members | identities of statics; the pinned-pinned branch refuted with a witness | partial | False for pinned-pinned members (wrong sign of the end-moment couple); proved for the other types, and the exact condition for pinned-pinned. |
| C04 | Released-end forces equal static condensation of the clamped element | same, with the member stiffness | the released force is specified by an equation (release the moment by an end rotation), solved by uniqueness; pinned-pinned refuted | partial | False for pinned-pinned members; proved for the other types, slender and shear-flexible. |
| C05 | Fixed-end forces are linear in the load magnitude | `factor_LM`, `parse_LM`, `get_cnl`, `get_ref` | homogeneity per class, induction over the rows | proved |  |
| C06 | Overlapping load types agree where they coincide | `LoadTrapez`, `LoadPUDL`, `LoadUDL` | field identities, case split on clipping | proved |  |
| C07 | Mirror symmetry of fixed-end forces | `get_cnl` of all classes | field identities against an independent mirror of the load | proved |  |
| C08 | A partial load that overhangs the span acts as its on-span part | `LoadTrapez._resolve`, `LoadPUDL` | case split on clipping; diagram and off-span defects refuted | partial | Trapezoidal loads are clipped; partial UDL diagrams are not (violation proved), and a partial UDL off the span raises. |
| C09 | Span diagrams: moment is the integral of shear and shear of load | `get_mbr_results` at a station | `HasDerivAt` on each side of every point of application | proved |  |
| C10 | Span diagrams: rotation and deflection integrate the moment | `get_mbr_results` at a station | `HasDerivAt`, boundary values | proved |  |
| C11 | Every member stiffness is symmetric | `get_span_k` for every rigidity and release (`beam.py` 884-1452) | matrix identities | proved |  |
| C12 | Rigid-body motion costs no force | same | matrix identities, uniqueness of condensation | proved |  |
| C13 | Strain energy of a member is never negative | same | sums of squares; positive definite flexibility by induction over nodes | proved |  |
| C14 | Released stiffness is the condensation of the fixed-fixed stiffness | same | release specified as minimisation over the released rotation (an equation), independent of the code's formula | proved |  |
| C15 | Shear-flexible stiffness reduces to the slender one | `k_FF_timo`, `k_timoshenko` | difference is a rank-one matrix; limit in the reals | proved |  |
| C16 | Prescribed displacements are met exactly | `_forces`, `_assemble`, `_apply_bc`, `_solver` as folds | loop invariant of the elimination, solver contract | proved |  |
| C17 | Free degrees of freedom are in equilibrium | same with `_reactions` and end forces | loop invariants; sum of member end forces at a node | proved | Stated with the reported member end forces instead of K d = f. |
| C18 | Global vertical equilibrium of reactions | complete linear analysis | virtual work of a rigid motion, induction over spans | partial | Needs prescribed displacements only at rigid supports; otherwise false (violation proved). Loads must lie on their spans. Foundation members: C110. |
| C19 | Global moment equilibrium of reactions | complete linear analysis | virtual work of a rigid rotation | partial | As C18, and false with pinned-pinned members (violation proved). |
| C20 | Superposition | complete linear analysis | linearity of every stage and uniqueness of the solution | proved |  |
| C21 | The answer does not depend on the elimination order or the solver | complete linear analysis | any permutation of the elimination gives an equivalent system | proved |  |
| C22 | Maxwell-Betti reciprocity | complete linear analysis | symmetry of the assembled matrix | proved |  |
| C23 | The stability check separates mechanisms from solvable beams | `_check_stability` | spectral theorem; `eigvalsh` is a parameter with its contract | proved | For every eigenvalue routine that returns exactly the eigenvalues of a symmetric matrix (one exists over the reals: realEigs_sound). |
| C24 | Uniform settlement and rigid tilt cause no internal forces | complete linear analysis | rigid motion solves the system; uniqueness | proved |  |
| C25 | A failed or unstable analysis does not replace earlier results | `BeamAnalysis` as a state machine | induction over call histories | proved |  |
| C26 | The stability verdict used is the one for the current structure | same with the stability cache | invariant of the cache over call histories | partial | Proved for edits through setters and methods; false for in-place writes into the public restraint list (violation proved). |
| C27 | Envelopes bound every analysed result | `Envelopes.__init__` | induction over the list of results | proved |  |
| C28 | Envelope values are attained, and are never beyond zero | same | same | proved |  |
| C29 | Coincident values belong to the governing result | same, `augment`, `combine` | same | proved | Also after augment and combine. |
| C30 | Envelope extremes do not depend on the order of results | same | permutation invariance through the specification | proved |  |
| C31 | Augmenting envelopes is the envelope of the union | `augment`, `combine`, `zero_like` | characterisation of both sides by the same specification | proved |  |
| C32 | The reaction history of merged envelopes is complete or absent | reaction histories of `augment` | case split; refuted for repeated merges | partial | Holds for a single merge; false for sequences of merges (a later merge with the original count refills the blanked history): violation proved. |
| C33 | Summed envelopes bound the superposed effects | `Envelopes.sum` | sums of attained extremes | proved |  |
| C34 | Load case names are unique through any history | `LoadCases` as a state machine | induction over histories | proved |  |
| C35 | Factor specifications mean what they say | `LoadCases.factors` | induction over the mapping | proved |  |
| C36 | Combining responses equals analysing the combined loads | `combine`, `analyze_combination`, `collect_response_matrix` over the full analysis | linearity of the complete pipeline up to the member results | partial | Proved with no prescribed displacements and no imposed curvature on released members; false otherwise (violations proved). |
| C37 | Sign-selective envelope is the best over all subsets | `sign_selective_envelope` | exchange argument over finite subsets | proved |  |
| C38 | Additive envelope is the best over subsets of the given size | `additive_envelope` | rearrangement: sum of the n largest | proved |  |
| C39 | Target combination attains the extreme at its target | `_make_target_combination` | comparison over all factor choices | proved |  |
| C40 | Patterned UDL segments partition the full UDL | `make_patterned_udl`, `add_span_udl` | partition of every span; decimal digits of the generated names | proved |  |
| C41 | Load cases are analysed on the same structure as the base model | `build_pycba_model` and the `Beam` constructor | the constructor rebuilds the same fields | partial | Holds for beams without a foundation whose settlement list matches the restraints; the foundation is dropped (violation proved). |
| C42 | Load patterning uses the right factors on the right spans | `LoadPattern.to_load_cases` | independent description of the designated spans | proved |  |
| C43 | Global to span coordinates are inverted correctly | `get_local_span_coords` | list induction | proved |  |
| C44 | Support descriptions translate to restraints faithfully | `supports_to_R` | spelling relation independent of the lookup | proved |  |
| C45 | Beam strings parse to the beam they describe | `parse_beam_string` | round trip from a renderer, all strings characterised | partial | Plain decimal lengths round-trip; text before the first and after the last terminal is ignored (violation proved). |
| C46 | Building a beam span by span keeps it well formed | `Beam.__init__`, `add_span` | induction over the calls | partial | Holds for accepted spans; a rejected member type leaves the span half added, restraints are not extended and short type lists are accepted (violations proved). |
| C47 | Loads act where they say and nowhere else | `parse_LM`, `get_ref`; `Row.intensity`, `Row.forces`, `Row.couples` and `Row.curvature` state the documented meaning of a row | load vectors depend only on the loads of the member; rows case by case (`Results/Meaning`) | proved |  |
| C48 | No load row is silently ignored | same | each row changes the load vector | partial | Proved for types 1 to 6 on spans of the beam; unknown types and spans outside the beam are ignored (violations proved). |
| C49 | Reported shears and moments close at member ends | `_member_values` | statics of the member; end stations | partial | Moments for all member types, shears for all but pinned-pinned members (violation proved); a force or couple applied exactly at an end appears as the documented jump. |
| C50 | Splitting a span at an extra node changes nothing | complete analysis of two beams | transfer matrices: splitting a load, joining two members | proved | Prismatic fixed-fixed span; trapezoidal loads must end on the span; imposed curvature on the divided span is not covered. |
| C51 | Querying results at a coordinate returns the value there | `BeamResults.at` with `np.unique` and `np.interp` | list induction | partial | False at the start of the beam and inside the first interval after a support (violations proved); proved everywhere else. |
| C52 | Result stations are ordered and span each member | `_member_values`, `_member_analysis` | sortedness, list induction | proved |  |
| C53 | Variable section profiles are positive, gap-free and total | `SectionEI` | invariant over `add_segment` histories; defects as negations | partial | Total and positive for segments that abut exactly and are not polynomial, except within 1e-12 after the end of a piece; inexact joins leave unassigned coordinates, fitted polynomials and extrapolated linear pieces can be negative (violations proved). np.polyfit is a parameter. |
| C54 | Vehicle axles on the deck are applied once, those off it not at all | `_axle_LM` | list induction with the coordinate lookup | proved |  |
| C55 | The lane load is clear of the vehicle and complete elsewhere | `run_load_model` lane loads | measure of the covered part computed and compared | partial | Exact unless a stretch within a span is shorter than 1e-9, which is dropped (violation proved, loss bounded by C55_error). |
| C56 | Vehicle axle coordinates and reversal | `Vehicle` | list induction | partial | A copying reversal after a reversal in place does not reverse (violation proved); all other sequences are covered. |
| C57 | A train contains every axle of its vehicles at the stated spacings | `make_train` | list induction | partial | The documented single spacing and vehicles with coincident axles are rejected, reversal in place is ignored (violations proved). |
| C58 | A vehicle run covers the whole crossing at the requested step | `run_vehicle` positions with `round` | floor arithmetic | proved | For positive steps and an end not before the start. |
| C59 | Critical values are the extremes of the run | `critical_values` | extremes through the envelope specification | partial | Reported positions include results whose extreme is only close to the critical value (violation proved); everything else holds. |
| C60 | Influence lines predict responses by superposition | `InfluenceLines` | linearity of the complete pipeline | proved | any set of loads at influence-line positions, any station effect or reaction; no prescribed displacements (InfluenceLines takes none), nonsingular structure, -1 the only negative restraint value |
| C61 | Influence line abscissae match ordinates after any history | same | invariant over histories | partial | holds while the lines are created at most once; after a second creation abscissae of the earlier one are kept (violation proved) |
| C62 | Tendon profiles are continuous through their control points | tendon profiles | piecewise polynomial identities; defects as negations | partial | All profiles are graphs through their control points; the slopes of a compound parabola match at the right contraflexure point exactly when b = c or e_mid = e_right (violation proved); a cantilever parabola ignores e_mid; the documented ordering of CompoundParabola is not the one checked. |
| C63 | Equivalent prestress loads reproduce F times eccentricity | `equivalent_loads` | Macaulay representation of the tendon, telescoping; errors bounded | partial | Exact -F e(x) when nothing is in the range the code drops (at most 1e-9), and in every case up to an explicit bound; also for the moments a complete analysis reports. Dropping makes the result depend on the unit of length (violation proved). |
| C64 | Foundation member: condensation preserves equilibrium and load | `FoundationElement` | Schur complement; positive definiteness of the internal block | partial | Everything except partial UDLs whose ends fall within np.isclose of a mesh node or in slivers below 1e-12 L, which change the total load (violation proved, error bounded by C64_load_error). The inverse routine is a parameter with its contract. |
| C65 | Nonlinear stiffness factors stay within bounds and only fall | `_update_R` in both nonlinear analyses | invariant over iterations | partial | Factors in [q,1] and monotone demand for both analyses, any solver; the demand at the end of the first position of a moving load is never assessed (violation proved). |
| C66 | Plastic hinge events are unique and chronological | same | invariant over iterations | proved |  |
| C67 | The nonlinear mesh carries each span's own properties | `_build_mesh`, property lookup | induction over spans; defect as negation | partial | Mesh, plastic moments proved; first element of every later span carries the EI of the span before (violation proved). |
| C68 | Nonlinear nodal load vectors carry the whole load | `_build_force_vector` | work of rigid motions | partial | Resultant force and moment for UDLs and point loads; other load types and points off the beam silently dropped (violation proved). |
| C69 | Modal mass is positive definite and totals the beam mass | `solve_modal` | sums of squares; Hermite integrals | proved | The eigenvalue routine is a parameter with its documented contract. |
| C70 | Modal and static analyses see the same structure | `solve_modal` against the static analysis | condensation of the mesh, transfer of rest states | partial | Proved for beams without prescribed displacements and with rigid restraints -1; violated otherwise; foundations are ignored by solve_modal (violation proved). |
| C71 | Unit selection is scoped and total | `units.py` | induction over histories; spelling relation | partial | scope and totality for all histories; names up to case, outer white space and choice of separator; a doubled inner space is not recognised although the comment says spaces are collapsed; no function of the analysis model takes a unit system |
| C72 | Non-prismatic fixed-end forces do not depend on how the section is described | `_ref_nonprismatic`, `_flexibility` | Simpson sums in closed form; defect as negation | partial | The stiffness never depends on the division; fixed-end forces of a uniform load are prismatic for one segment, and differ for every division into two (violation proved with the exact error). The Gauss-Legendre table is a parameter with its contract. |
| C73 | Bridge load effects come from static plus moving loads | `BridgeAnalysis` load capture | invariant over histories | partial | Capturing again after a run and adding loads before the first run change the static loads (violations proved). |
| C74 | Member types are coerced consistently | `MemberType.coerce` | case analysis against a spelling relation | partial | Names and integer codes exactly; fractional codes are truncated (violation proved). Letters outside ASCII are not modelled. |
| C75 | Shear evaluation points avoid supports consistently | `resolve_shear_points` | list induction, sorted sets | proved |  |
| C76 | Fixed-end forces of shear-flexible members clamp the ends | `_ref_timoshenko` | end conditions written with integrals of moment and shear | partial | Every mechanical load without couples and imposed curvature up to degree two (C144 bounds the integration error beyond); every applied couple leaves the end displaced by -m/GAv (violation proved). Prismatic members. |
| C77 | Adequate supports make the restrained stiffness nonsingular | assembled stiffness | energy argument: zero energy is rigid motion | proved |  |
| C78 | Per-span extremes are taken over each member's own stations | `per_span` | list induction | proved |  |
| C79 | Reported deflections and rotations start at the nodal displacements | `_member_values` rotations and deflections | boundary values of the cumulative sums | partial | Holds at the first interior station (rotation unless released) and, for released members integrated by boundary conditions, at the last; false at the padding stations (violation proved); at the right end of other members it holds only up to integration error. |
| C80 | A segment UDL loads exactly its segment | `_make_segment_udl` | case analysis of the tolerances; error bound | partial | Exact where no segment end falls within the tolerances of a support; false there (violation proved), with the error bounded in all cases by C80_segment_error. |
| C81 | Moments reported along a foundation member are the moments acting there | `FoundationElement.recover` | equilibrium of the piece | partial | The reported moments are those acting less the consistent nodal moments of the foundation on the piece; equality fails on every foundation member (violation proved). |
| C82 | Nonlinear moments stay in equilibrium | `analyze`, `analyze_moving` | element equilibrium kept by every increment | proved |  |
| C83 | Before first yield the nonlinear analysis is elastic | `analyze` | all factors one before yield | proved |  |
| C84 | The nonlinear analysis honours the supports | `_apply_bc` of the nonlinear analysis | invariant over increments | partial | Rigid restraints exact; springs ignored (violation proved). |
| C85 | Collapse is reported exactly when the hinges form a mechanism | `_is_mechanism` | velocity field of a mechanism is a null vector; witnesses for the failures | partial | Mechanisms with two or more hinges are detected; single-hinge mechanisms are missed and false ones reported (violations proved). |
| C86 | A tendon over several spans acts on each span as its own piece of tendon, anchored at its ends | `equivalent_loads` over several spans | induction over spans | partial | Tendons through every span of a beam without free ends; tendons that stop short, force steps and unstressed cantilevers violate the claim (proved). |
| C87 | Library vehicles are the documented load models | all getters of `VehicleLibrary` (`vehicle.py` 257-705) except the example permit and validation trucks | axle lists as explicit positions and weights; induction over the number of rail groups; the assessment trucks refuted | partial | Every getter except the Australian assessment trucks, whose documented totals are not met (violation proved: 68 t instead of 68.5 t, 53 t instead of 45 t). get_example_permit and get_validation_truck have no documented data. |
| C88 | Critical shears at shear points are the shears on both sides of the section | `critical_values` 698-728, the station grid with shear points, `Envelopes` | the station chosen by argmax lies within the pair placed by the grid, strictly inside the member, where the reported shear is the closed form; sections at supports refuted | partial | Sections further than 1e-9 of the member from its ends; for a section at a support the values are taken one station away (violation proved). |
| C89 | A request for shear points applies to its own analysis only | `_apply_shear_points` and the `try`/`finally` of `static_vehicle`, `run_vehicle`, `run_load_model` as a state machine | induction over call sequences; zero step and interleaved static analysis refuted | partial | Holds for runs with a nonzero step, and for reports directly after the run; a zero step leaves the points behind, and a static analysis in between changes the sections reported for the run (violations proved). |
| C90 | Envelope ratios compare like with like | `envelopes_ratios` | specified by the equation q·|ref| = |trial|; acceptance refuted | partial | The ratios are as documented; envelopes of different bridges are accepted (violation proved). |
| C91 | A completed analysis is the exact solution of the continuous beam problem | nothing new: `Exact/Spec.lean` states the continuous problem (free-body cuts by integrals of the load intensity, `EI θ' = M`, `v' = θ`, node conditions) without any formula of the code | the load diagrams are shown to be free-body cuts (fundamental theorem of calculus off the patch ends); a line exists iff the clamped stiffness equation holds; releases by elimination of the free rotation; uniqueness and existence from regularity of the assembled system | partial | Proved for every slender prismatic beam whose pinned-pinned members carry loads with balanced clamped end moments; `C91_exact_iff` shows that this is exactly when an elastic line fits, so unbalanced loads on such a member refute the property. |
| C92 | Reported rotations and deflections converge to the exact elastic line | `_member_values` rotation and deflection by cumulative trapezium, uniform and augmented grids | error of one trapezium bounded by width times variation (Lipschitz parts and couple steps), telescoped; the closed-form start rotation of released members is exact | proved |  |
| C93 | A nonlinear analysis ends with the verdict its hinges call for | nothing new: `NL.analyze`, `NL.analyzeMoving` | invariant "the hinges so far pass the mechanism test" through the loop, induction on the steps; moving loads refuted with a two-hinge cantilever | partial | Proved for proportional loads. For moving loads 'no collapse means no mechanism' is refuted: hinges formed within the sub-increments or at the first position are never tested. |
| C94 | The schematic shows the supports and hinges that are analysed | `_infer_supports`, `_infer_hinges` | meaning of a symbol specified per degree of freedom; induction over the nodes with the pin flag; the hinge specified by zero moment rows of the member stiffness | partial | Supports proved for restraints whose negative entries are -1 and vertical springs without rotational restraint; the other restraints are drawn wrongly (violations proved). Hinges for slender prismatic members. |
| C95 | The schematic shows the loads that are analysed | `_infer_loads` | drawn intensity as a function on the axis compared with `Load.intensity`; the loop accumulates one drawing per load | partial | Proved when the loads are on spans of the beam and partial uniform loads do not overhang; otherwise refuted. |
| C96 | The TikZ commands draw the schematic | `render_tikz` without number formatting | commands as a data type with an interpreter that looks names up; digits are injective and never letters | partial | Names, definitions and places proved; upward distributed loads are drawn as downward ones, a hinge over an inner pin or roller is not distinguished, labels after Z are not letters (violations proved). Rounding by :g not modelled. |
| C97 | The reactions drawn at the nodes balance the member ends | `_reactions_by_node` | dealing two filtered lists back restores the vector; nodal equilibrium gives the values | partial | Exact for values above 1e-6 if displacements are prescribed at rigid supports only; both exceptions refuted. |
| C98 | The analysed deflected shape minimises the potential energy | as C91 and C117; energies of arbitrary shapes in `Exact/Energy`, with shear strains in `Exact/ShearEnergy` | principle of virtual work for every compatible shape (integration by parts against loads with jumps and kinks), expansion of the quadratic functional about the solution; with shear the slope splits into the rotation of the sections and the shear strain, and the shear does work through the latter | partial | Prismatic beams, slender or shear-flexible; pinned-pinned members need balanced clamped end moments and shear-flexible members couples that cancel (otherwise no line fits the results, C91, C117). |
| C99 | Energy balance; stiffening a beam never lets its loads do more work | as C98 | virtual work of the solution on itself; the shape of the stiffer beam is a competitor for the softer one; a member made stiffer in shear as well | partial | Prismatic beams, slender or shear-flexible, under loads for which there is an exact line (C91, C117). |
| C100 | Influence lines of reactions follow the principle of Mueller-Breslau | as C98, with `InfluenceLines` (C61) | virtual work of each of the two solutions on the other (Betti); only the moved support survives | partial | Prismatic beams, slender or shear-flexible, under loads for which there is an exact line (for influence lines: on pinned-pinned members positions at the ends and the centre). The influence lines of internal forces are C109. |
| C101 | Load builders add exactly the load they are asked for | `add_*` of `BeamAnalysis`, `LoadCase`, `LoadCases` (`LoadCases/Rows`) | requested intensity, forces, couples and curvatures specified on the arguments; induction over the sequence of calls through `parse_LM` | partial | Everything except two exceptions that are refuted: a rejected call by a new name leaves an empty case behind, and a length given without a start is ignored. |
| C102 | Load position identifiers make the reported masks readable | `load_positions`, `sign_selective_envelope` | identifiers are the powers of two in order; bits of the masks | partial | Segment cases followed by any cases without own positions; segment cases added after another case collide with it (violation proved). |
| C103 | The loaded regions shown for a pattern are where its loads act | `_load_case_loaded_regions`, `_load_case_loaded_spans` | stretch of each parsed load specified on the load; clipping identities | partial | Loads that start on their span and trapezoids with both or neither of start and length; the others and loads added later are refuted. |
| C104 | Results do not depend on the units | the whole linear analysis and the member results (`Similar/`) | conversion of the input specified per quantity; each member stiffness, load vector and result converts; the converted system is an image of the system (`System.Image`), whose solution is unique | partial | Displacements, reactions, end forces and everything along the members except rotation and deflection at the two padding stations of each member. Refuted: those two values, and the stability check, depend on the units. |
| C105 | A beam seen from the other side | the whole linear analysis and the moments and shears along the members (`Similar/Mirror*`) | mirror image of the input specified per quantity; Simpson sums, flexibilities, releases and fixed-end forces are mirrored; the mirrored system is an image of the system (`System.Image`), whose solution is unique | partial | Displacements, reactions and end forces of the nodes and members; stations, moments and shears along the members without shear points. Refuted: rotations and deflections along the members (integrated from the left), and the shear at a station exactly at a point force. Not covered: point forces on shear-flexible members of variable section. |
| C106 | Natural frequencies of compared beams | `solve_modal` with its mesh, supports and masses (`Modal/Model`) | the displacements of a mesh are displacements of every finer mesh with the same energies (cubics divided, `Modal/Refine`); the eigenvalues of two pencils one of which lives on a subspace of the other are compared by dimension counting (`Modal/Rayleigh`); existence from the spectral theorem (`Modal/Exists`) | proved | A support counts as rigid if its restraint is -1, as the modal analysis reads it (C70 records the other negative values). `solveModal_completes` shows that the analyses compared exist. |
| C107 | Reported frequencies, periods, nodes and mode shapes | `ModalResults` and `mode_shape` (`Modal/Shape`), `node_x` (`Modal/Model`) | the shape is the deflection divided by its first entry of largest size; the node list in closed form | partial | Modes that move some node vertically. Refuted for the others: a span analysed as one element has mode shapes that are zero. |
| C108 | A vehicle is the sum of its axles | `run_vehicle`, `run_load_model` as whole functions without plots and shear points, the envelope of the analyses (`Bridge/Run`) | the parsed load matrix of a position is the weighted sum of parsed unit loads, and stations and reactions superpose (with settlements: the weights, that of the unloaded beam included, sum to one); the axles of a train are those of its vehicles moved | partial | Runs without shear points, bridges without foundation. Trains of vehicles without coincident axles and with one gap fewer than vehicles (the exceptions are those of C57). |
| C109 | Influence lines of moment and shear follow the principle of Mueller-Breslau | as C100 | a broken elastic line is an elastic line plus a rigid displacement right of the break (`Exact/Broken`, for shear-flexible members `Exact/ShearBroken`); the work of the loads and end forces through it is that of the internal forces at the break; then Betti as in C100. The broken beam exists: stiffness equations with the end forces of the break | partial | Prismatic beams, slender or shear-flexible, under loads for which there is an exact line (for influence lines: on pinned-pinned members positions at the ends and the centre), C91, C117. |
| C110 | Reactions and foundation pressure carry the loads | beams of which any member rests on a foundation: `get_ref`, `get_span_k` for each member and the analysis (`Foundation/Beam`: `FBeam`) | each span balances its end forces, loads and pressure (C64 for foundation spans, C18/C19 for others), summed with the nodal balance of the global system | partial | Displacements prescribed at rigid supports only (C18), moments without pinned-pinned members (C19), and partial UDLs clear of the tolerances of the mesh (C64); the exceptions are refuted there. |
| C111 | The condensed analysis solves the whole mesh of the foundation beam | as C110; the whole mesh is a specification of its own (`FBeam.MeshSolution`): one element per piece, equilibrium of all inner nodes and of all free nodes of the beam | condensation is elimination: the inner equations hold iff the inner displacements are the recovered ones, and then the condensed member forces are those of the mesh | proved |  |
| C112 | A foundation holds a beam without supports | as C110 | energy: zero energy on a member with foundation means no displacement at its ends, on the others rigid motion; existence from nonsingularity | proved | `C112_completes` for beams without prescribed displacements. |
| C113 | Superposition on beams with foundation spans | as C110 | the load vector and the recovered displacements are linear in the loads; then uniqueness as in C20 | proved |  |
| C114 | The deflection curve is the deflected shape | `deflection_curve` and the stations of any mix of members (`Foundation/Curve`: `FBeam.memberStations`) | each member is a list of stations with known ends and order; inside it the deflection is a cumulative trapezoidal sum. The floating span (C64) has zeros between its pieces | partial | Refuted for foundation spans: the closure points between the pieces of their mesh stay in the curve, so a floating span is drawn with lines to zero. |
| C115 | The cache of foundation elements is never stale | `_found_cache` with `_foundation`, `get_span_k`, `get_ref`, `add_span`, the setters and the analysis as a state machine (`Foundation/Cache`) | invariant: every cached element is the one that would be built now; assignments to list entries break it (witness with two displacements) | partial | Refuted for programs that assign to entries of the public lists `mbr_kf`, `mbr_EIs`, `mbr_lengths`, which take effect for spans without foundation only. |
| C116 | Reciprocity on beams with foundation spans | as C110 (`Foundation/Betti`) | virtual work of the end forces of one case on the displacements of the other; inside a foundation member the mesh is in equilibrium and its stiffness symmetric; the fixed-end forces of a piece do the work of its loads on the cubic, and the parts of a load together do the work of the load on the whole line | proved | On members without foundation the loads are counted by their equivalent end forces, as in C22. |
| C117 | A completed analysis of shear-flexible members is the exact solution of the Timoshenko beam problem | `k_timoshenko`, `_ref_timoshenko` for prismatic members; the continuous problem is stated in `Exact/Shear` (`ShearSpan`, `ShearBeam`) | adding the shear displacement turns a line of the shear-flexible member into one of C91; the stiffness equation with the shear terms is equivalent; releases, existence and uniqueness as in C91; the condition for a line to exist is necessary and sufficient | partial | `C117_exact_iff`: lines fit exactly if the clamped end moments balance on each pinned-pinned member and the couples balance on each other shear-flexible member; otherwise the property is refuted. Tapered members are not covered. |
| C118 | Reported rotations and deflections of shear-flexible members converge to the exact lines | as C92, with the shear strain in `_member_values` and the start rotation from the boundary deflections (`Exact/ShearConverge`) | the trapezium rule for the shear (Lipschitz parts and the steps at point loads), added to the bounds of C92; the start rotation of released members inherits the error of the end deflection | partial | Whenever lines of the continuous problem fit the results, which is exactly when the loads balance (C117_exact_iff); prismatic members. |
| C119 | Signs of influence lines of bending moment on continuous beams | as C109; `BeamDef.Continuous`, `MidSign`, `SupportSign` state the signs (`Exact/Signs`) | the broken beam of C109 on a continuous beam: rotations die out away from the broken span with alternating signs (induction along the spans with the carry-over inequality), the line of an unloaded span has the sign of its end rotations, and the own span is bounded explicitly; counterexample for spans soft in shear by evaluation (`Exact/SignsShear`) | partial | Slender prismatic spans with supports at every node. Spans soft in shear do not alternate (violation proved, a property of such structures). Outside the middle third the line of a span section can change sign within its span. |
| C120 | Load patterning finds the extreme arrangements | `LoadPattern.analyze` (`patternAnalyze`, `Exact/Patterns`) on `loadPattern` of C42, `runCase` and the envelope of C27-C29 | moments as minus the work of the load rows through the line of the broken beam (C109); with the signs of C119 the row-wise comparison of factors gives the extreme arrangement, which is one of the patterns; counterexamples over the rationals | partial | Proved for sagging in the middle thirds, and for hogging at the end supports and over supports j <= 2 with at most two spans to the right; refuted for hogging over inner supports of four spans (`C120_hogging_violation`; `C120_worst` gives the governing arrangement) and for positive moments over supports (`C120_uplift_violation`). |
| C121 | Combinations of combinations | `LComb` with `_resolve_load_cases`, `factor_vector`, `to_LM`, `to_load_case`, `response`, `analyze`, `envelope` (`LoadCases/Nested`) on the collections of C34-C36 | C36 for every inner combination turns the second response matrix into a product of the first; then the double sum is exchanged | partial | Under the conditions of C36: no prescribed displacements (or factors summing to one) and, for rotations and deflections, no imposed curvature on released members. |
| C122 | Combinations stay what they were while the collection changes | as C121, with the histories `lcRun` of C34 | names are only ever appended, so keys denote the same positions; induction over the loop that fills the factors; counterexamples by evaluation | partial | Proved for names, positions from the start and sequences; refuted for positions from the end (`C122_negative_index_violation`) and for the meaning of a target combination after a case has changed (`C122_target_violation`). |
| C123 | The envelope of a collection beside the additive and sign-selective envelopes | `LoadCases.envelope` (`lcEnvelope`) on `runCase` and `Envelope.new` | C28 for the envelope, C38 with one-element subsets, C37 with one-element and empty subsets | proved |  |
| C124 | Imposed curvatures | `LoadIC` (`Load.ic`, `icCnl`, `Load.kappaImp`) in the analysis and in `_member_values`, as C91 and C92; continuous problem `ImposedBeam` in `Exact/Imposed` | the shape of an imposed curvature on a member held at its left end is subtracted from the elastic line, which leaves the line of the loads (C91); its fixed-end forces are minus the stiffness times its end displacements; uniqueness as C91; curvatures compatible with the supports: the free shape is a solution with no forces; convergence: trapezium rule for the summed curvature (`Exact/ImposedConverge`), for released members through the rotation recovered from the end displacement; shear-flexible members (`Exact/ImposedShear`): the same subtraction from the line of C117, since imposed curvatures shear nothing, and the code maps their fixed-end forces like those of loads | partial | Prismatic members, slender or shear-flexible, and curvatures of degree at most two (beyond that the code's Simpson integration is approximate; C146 bounds the distance from the continuous solution for every degree). Pinned-pinned members need balanced fixed-end moments and shear-flexible members couples that cancel (false otherwise, C91, C117). |
| C125 | The matplotlib schematic draws the loads that act | `render_mpl` and its helpers over ℝ as a list of glyphs (`Render/Mpl`); text layout, colours, line widths, z-order and the `:g` format are not modelled | membership of each glyph; monotonicity of the height function; the sense of an arrowhead by the sign of a cross product | partial | Arrows inside a distributed load that changes sign may point the wrong way, equal and opposite end intensities are labelled as a uniform load, and lengths are labelled m in every unit system (violations proved). End arrows need a beam of at least 1e-7. |
| C126 | The matplotlib schematic fits its axes | the points each glyph covers (`Glyph.ink`: convex hulls, discs, arcs; a text is the point where it is placed) and the axes limits (`Axes.view`) | a bounding box for each glyph, compared with the limits | partial | With supports shown: loads on the beam and some load or no fixed support. Without supports: equal constant rigidities, no extents and no dimensions. Fixed supports are cut off when no load is drawn; without supports, extents of partial loads and non-prismatic profiles are; loads that overhang the beam run out of the axes (violations proved). |
| C127 | The drawing of the reactions shows the reactions | `plot_reactions`, `render_reactions_mpl` | C97 for the values; no other arrows by inspection of every glyph; bounding boxes | partial | Forces above 1e-6 at degrees of freedom where displacements are only prescribed at supports (C97); every couple's arc is cut off at the top (violation proved). |
| C128 | Reactions are labelled to four significant figures | `_round_sig` (`roundSig`, exact arithmetic) | the decade of the logarithm; rounding to the nearest integer | proved |  |
| C129 | The elevation of a non-prismatic beam shows its rigidity | `_ei_depth_profile` | cube of a cube root; maximum and minimum of the stations | partial | The second half for members of constant rigidity; false for a variable section, which is sampled at 41 stations (violation proved). |
| C130 | The animation of a traverse shows the analyses and the running envelope | the data of `animate` (`Bridge/Animate`: curves, running bands, limits); the writing of the file is not modelled | induction over `np.maximum.accumulate`; C28 for the envelope | partial | Frames, curves, bands and limits in full. The last band is the envelope of the run except that an Envelopes object also counts zero, so with permanent loads the band does not grow to the envelope as documented (violation proved). |
| C131 | The deck drawing shows the axle loads of the analysis | `_draw_deck_and_vehicle` over ℝ as glyphs after those of `render_mpl` (`Render/Deck`); styling and the place of the caption are not modelled | C54 for the loads; bounding boxes as for C126 | partial | The axle loads in full. View: for permanent loads on the beam with no upward point load; the label of every upward permanent point load is placed below the axes (violation proved). |
| C132 | The caption of the vehicle gives its axle weights | the groups of `_vehicle_spec` (`axleGroups`, with `np.isclose`); the `:g` format is not modelled | strong induction on the number of axles | partial | Each weight within np.isclose of the one shown; exact if no two different weights are close. Close weights are merged (violation proved). |
| C133 | The reactions of an envelope plot are those of its run | the reaction panels of `plot_envelopes` (`reactPanels`) | the history of `Envelope.new` and `argMax_spec`; witnesses by evaluation | partial | For the envelope of the last run. An envelope of another run with as many positions is drawn over the wrong positions, and a merged envelope whose history was blanked is drawn as zeros (violations proved). |
| C134 | In statically determinate beams forces do not depend on stiffness | `analyze`, `get_ref`, `get_span_k` and the member results | equilibrium of the reported end forces at members and free nodes; the difference of two analyses is a state of self-stress, hence zero; for the factor the two systems are the same after scaling | proved |  |
| C135 | A finer step gives a wider envelope, which converges | `run_vehicle` (`runPositions`, `runOver`) and `Envelopes` | the positions of the coarse run are among those of the fine run; the influence lines of moments are continuous and those of shear continuous to the right, because they are the deflected lines of the beam broken at the section (C100, C109) | partial | Refinement: for runs that do not go beyond their end; the position count is rounded, so a run can end up to half a step beyond pos_end, and then a finer step can give a smaller envelope (violation proved). Convergence: slender prismatic members, none pinned at both ends, rigid vertical supports at both ends; for the shear the step depends on the position. |
| C136 | Exactly the ill-posed inputs raise | `analyze`, `parse_LM`, the member results, `run_vehicle` and `create_ils`; the solver is any that raises for singular matrices only, the stability check any function of the system | case analysis of every error branch; the reduced matrix of a nonsingular system is injective | proved |  |
| C137 | Result plots and exports show the reported numbers | `plot_results`, `_plot_diagram`, `results_figure`, `diagram_figure`, the axis labels of `UnitSystem`, `to_dataframe` and `to_csv` (`Plot/Model`): panels with their curves, labels and orientation; colours, fills, hover texts and layout are not modelled | the curve of each panel is compared with the stations, independent of the backend | proved |  |
| C138 | Envelope plots show the extremes, the single analyses and the coincident effects | `Envelopes.plot`, `envelope_figure`, `plot_coincidents`, and the results an envelope keeps (`PEnv`) | an invariant of all ways of merging (`Enveloped.inBand`); `Envelope.new_spec` for coincident values; witnesses by evaluation | partial | The extremes: every envelope. Single analyses and coincident values: envelopes made from results; after a union or sum only the analyses of the first envelope are drawn, and coincident values of a sum are drawn as zero (violations proved). |
| C139 | The backend that is named is the backend that draws | `set_backend`, `get_backend`, `resolve_backend` on lists of characters | characterisation of `lower` on ASCII words; induction over calls | partial | The empty name is refused by set_backend but accepted for one call, where it means the default (violation proved). |
| C140 | The load factor obeys the bounds of plastic limit analysis | `analyze` with `_is_mechanism` and `_update_R`; mechanisms as nodal displacements with rigid elements (`NL.work`, `NL.dissipation`, `NL.Held`) | virtual work of the equilibrium of the final moments (C82) on a mechanism; summation by parts | partial | A collapse factor is only an upper limit of the admissible factors if the final moments reach Mp with the right sign at all hinges of a motion. A cantilever is never found to collapse, so the reported factor exceeds every admissible one (violation proved). |
| C141 | The plots of the nonlinear analysis show its moments, hinges, loads and shape | `plot_moments`, `plot_hinge_history`, `plot_beam_state`, `_draw_beam`, `plot_collapse` (`Nonlinear/Plots`): curves, markers, arrows, triangles and limits | C66 for the events, C83 for moments before yield and the cubic of the element, `np.interp` at a node | partial | Signs: runs before yield, all nodes but the first, where the sign is reversed (violation proved). Supports are drawn at every end of a span, also at a free end (violation proved). |
| C142 | The plots of a bridge analysis show the analysis at one position and the ratios of two envelopes | `plot_static`, `plot_ratios` (`Bridge/Plots`): curves, labels, orientation, axle lines and bars | case analysis of `plotStatic`; C90 for the ratios; witnesses by evaluation | partial | plot_static: all but the sign of the moment, which is reversed on an axis that is not turned over (violation proved). plot_ratios: beams with at least one reaction; for others it raises ValueError (violation proved). |
| C143 | The plots of load patterns, of response envelopes, of influence lines and of modes show what was computed | `plot_load_patterns`, `plot_response_envelope` (`LoadCases/Plots`), `plot_il`, `plot_modes` and the lower panel of `ModalResults.plot_results` (`Modal/Plots`) | C103 for the loaded parts, C37 for the envelopes, C69 and C107 for modes | partial | Strips of load patterns under the conditions of C103 (distributed loads that start on their spans); the rest in full. |
| C144 | Numerical integration of imposed curvatures and of variable sections has a proven error | `simpson` (`scipy.integrate.simpson` on 2001 points), `icEndMoments`, `theta0` of variable sections; `ClampsCurvature` is the independent clamping condition | fourth-order error of one panel by comparison of derivatives (`growth`), summed over panels; linear in the polynomial; piece by piece for variable sections | proved | In exact arithmetic. |
| C145 | The analysis is well posed | `BeamDef.analyze` as C01; `System.under` replaces fixed-end forces and prescribed values | superposition of finitely many unit solutions, which exist because the free block is nonsingular; the sum of their magnitudes is the constant | proved | In exact arithmetic; the constant is not computed. |
| C146 | Imposed curvatures of any degree are analysed with a proven accuracy | as C124, with `curvErr` the bound of C144 summed over the curvatures of a span | the free shape of a curvature as iterated integrals; exact fixed-end forces give the exact solution, as C124; C144 bounds their distance from those of the code, C145 its effect; shear-flexible and released members (`Exact/ImposedShearAny`): the release step is a linear map of the clamped forces; along the members (`Exact/ImposedReport`): the results the code would give from the exact end values converge (as C124), and its own differ from these by a constant times the distance of the end values, whatever the number of stations | partial | Prismatic members, slender or shear-flexible. Pinned-pinned members need balanced fixed-end moments and shear-flexible members couples that cancel (false otherwise, C91, C117); tapered and foundation-supported members are missing. |
| C147 | Drawings of vehicles, sections and tendons show them | `plot_vehicle`, `SectionEI.plot`, `plot_tendon` (`Plot/Drawings`): arrows, outlines, risers, drapes and marks; text formats and the schematics of panels (a) and (c) (C125) are not part of it | membership and order of what is drawn; `Joined` for sections, `SegChain` for tendons | proved | Sections of segments that follow one another exactly; drape points up to 1e-9 right of a joint of an ordered profile continue the piece before it. |
| C148 | The natural frequencies converge to those of the continuous beam | `solve_modal` as C69; the continuous beam is specified by its admissible shapes and energies (`BeamShape`, `exactOmegaSq`), independent of any mesh | Courant-Fischer in both directions: mesh shapes are admissible shapes, and sampling a shape at the mesh nodes loses no more than a share of order 1/n² of its kinetic energy and adds no strain energy (`Modal/Interp`); for the simple span every space of k + 1 shapes has one that vanishes at k equally spaced points, to which the inequality of Wirtinger applies piece by piece | proved | Euler-Bernoulli members, as the code has them; in exact arithmetic. |
| C149 | Foundation members are close to the continuous beam on a Winkler foundation | `FoundationElement`, `auto_subdivisions` and `BeamAnalysis.analyze` as C63, C64 and C112; the continuous beam is specified by the principle of virtual work (`FBeam.Winkler`), independent of any mesh | the mesh is a Ritz method with exact fixed-end forces of each element, so its result is nearest in energy among the shapes of the mesh (`Foundation/Ritz`); interpolation at the mesh nodes bounds that distance (`RitzMember`); a bound of a function by its own integral and that of its curvature gives the pointwise bounds (`Pointwise`); the state exists by the general solution of the member equation and the exact member stiffness it gives (`Krylov`, `Exists`) | proved | Loads clear of the element ends as in C112 (LoadsClear); members without a foundation enter by their stiffness and fixed-end forces (C91). |
| C150 | Influence lines of reactions are available for every beam with a rigid support | `get_il` as C34, with the type of the array `idx_mask` (`ILState.getWritten`: `np.zeros_like` of a list with a float is a float array, whose entries are no indices) | the invariant of C61 over the earlier calls, C136 for the creation of the lines, and the index of the nearest support in the reactions | partial | Exactly when a line is returned, for every beam that can be analysed. Refuted for restraints of which one is written as a floating-point number (-1.0, or the stiffness of a spring): the reaction lines then raise IndexError. |
| C151 | Beams with tapered members are analysed with a proven accuracy | `k_nonprismatic`, `_ref_nonprismatic`, `_flexibility` and `BeamAnalysis.analyze` as C13, C72 and C91; the continuous beam is specified by its differential equation and equilibrium (`TaperBeam`) | virtual work with the unit end couples gives the exact flexibility equations of a span (`Exact/Taper`), which differ from those of the code by the integration errors only; C145 carries the difference to the whole beam; the state exists and is unique because the exact flexibilities are positive definite and give a nonsingular system with the supports of the code (`Exact/TaperExists`); section objects are piecewise polynomials with finitely many jumps, bounded away from zero (`Exact/TaperSection`) and of bounded variation, for which the trapezium rule of `_member_values` converges (`Exact/TaperReport`) | partial | Slender members, none pinned at both ends (false for those with unbalanced loads, C91), mechanical loads. The error is stated by the integration errors (C144 bounds those of the primary rotations). Sections: segments that abut exactly, pieces positive up to 1e-12 beyond their ends (C53 shows what happens otherwise), span no longer than the section. |
| C152 | The integration of variable sections has an explicit error | `_gauss_nodes`, `_flexibility`, `SectionEI.__call__` as C53 and C72; `leggauss` is an input that integrates the powers below twice the number of points exactly | the table is exact for polynomials on every piece; the reciprocal of the rigidity is approximated by a geometric series, a polynomial of a degree the table still integrates; the strip of 1e-12 after a joint, where the code takes the piece before it, is bounded apart (`Exact/TaperGauss`).  Existence of the tables: the mean of the powers lies in the convex hull of a compact curve (Carathéodory) | proved | The Gauss table is an input with a stated contract (positive weights, exact powers); a table that meets it exists (`leg_exists`). Segments abut exactly; the Gauss points lie more than 1e-12 beyond the joints. The coefficients numpy fits are as many as the degree plus one at most. |
| C153 | Stiffer members and supports make a stiffer beam | `get_span_k` and `BeamAnalysis.analyze` as C11-C14 and C01; `Member.AtMost`, `holding` and `settlementWork` are the specification | the inverse reverses the order of positive definite flexibilities; a released member stores the least energy with the kept displacements; without loads the displacements of the analysis store the least energy with the prescribed values, with loads the least potential energy (`Analysis/Stiffer`) | proved | Members without elastic foundation; variable sections compared at the same integration points. In exact arithmetic. |

## Modules

Theorems named `Cnn_…` state the properties; other theorems are helper lemmas. Each property theorem is followed by an
`example` that instantiates its hypotheses.

| Module | Contents | Lines |
|---|---|---|
| Basic | Shared vocabulary of the model: Python exceptions as values, member types and end-force tuples | 42 |
| Analysis/Determinate | C134: what does not depend on the stiffness | 825 |
| Analysis/Equil | Properties of a completed analysis: prescribed displacements (C16), equilibrium of the free degrees of freedom (C17), global equilibrium (C18, C19) (C16, C17, C18, C19) | 714 |
| Analysis/Lemmas | Helper lemmas for the global analysis | 501 |
| Analysis/Linear | Linearity and uniqueness of the analysis: superposition (C20), independence of the elimination order and of the solver (C21), reciprocity (C22), rigid settlements (C24) (C20, C21, C22, C24) | 1074 |
| Analysis/Model | Model of the direct stiffness analysis of `src/pycba/analysis.py` 406-816 and of `Beam._set_loads` / `Beam.get_ref` (`src/pycba/beam.py` 325-344, 716-752) | 215 |
| Analysis/Stability | The stability check of `analysis.py` 507-561 (C23) and supports that guarantee stability (C77) (C23, C77) | 659 |
| Analysis/State | `BeamAnalysis` as an object with state (`analysis.py` 174-206, 408-466, 563-586) together with the mutable parts of `Beam` (`beam.py` 192-243, 277-323, 346-421): stored results (C25) and the cached stability verdict (C26) (C25, C26) | 679 |
| Analysis/Stiffer | C153: a stiffer member stores at least the energy of a softer one, whatever its end displacements, and a stiffer beam needs at least the work of a softer one to be forced into the same support settlements | 879 |
| Analysis/Total | C136: when an analysis completes | 832 |
| Bridge/Animate | Model of the data that `BridgeAnalysis.animate` (`bridge.py` 1060-1146) draws below the deck, of `plot_envelopes` (1164-1256) and of the caption `_vehicle_spec` (995-1011), with C130, C132 and C133 | 760 |
| Bridge/Crit | C59: the critical values of a moving-load analysis (C59) | 390 |
| Bridge/Library | C87: the vehicles of `VehicleLibrary`, `src/pycba/vehicle.py` 214-705 (C87) | 554 |
| Bridge/Loads | C54, C55 (the loads of a vehicle position), C58 (the positions of a run), C73 (static and moving loads) and C75 (shear points) (C54, C55, C58, C73, C75) | 826 |
| Bridge/Model | Model of `src/pycba/vehicle.py` (vehicles and trains) and `src/pycba/bridge.py` (moving-load analyses) | 256 |
| Bridge/Plots | Model of the diagrams of `BridgeAnalysis.plot_static` (`bridge.py` 826-873) and of `plot_ratios` (1279-1328), with C142 and the bars of C133 | 257 |
| Bridge/Refine | C135: a finer step of a vehicle run gives a wider envelope, which converges to the extremes over all positions | 1112 |
| Bridge/Refuse | C55: clearances that `run_load_model` refuses (C55) | 47 |
| Bridge/Run | C108: what a vehicle does to a bridge is what its axles do one by one | 826 |
| Bridge/Shear | C88 (the critical shears reported at shear points), C89 (the scope of a request for shear points) and C90 (ratios of envelopes): `src/pycba/bridge.py` 213-282, 698-793 (C88, C89, C90) | 779 |
| Bridge/Vehicle | C56 (axle coordinates and reversal) and C57 (trains) (C56, C57) | 384 |
| Build/Model | Model of how a beam is described: `MemberType.coerce` (`src/pycba/types.py` 38-69), support names and beam strings (`src/pycba/utils.py`), the `Beam` constructor, `add_span` and `get_local_span_coords` (`src/pycba/beam.py` 40-242, 502-528) and the copy of a beam made for a load case (`src/pycba/load_cases.py` 849-871) | 314 |
| Build/Props | C41, C43 and C46: the parts of a beam stay in step, positions along it, and the copy made for a load case (C41, C43, C46) | 550 |
| Build/Text | C44, C45 and C74: member type names, support names and beam strings (C44, C45, C74) | 716 |
| Envelope/Model | Model of `Envelopes`, `src/pycba/results.py` 378-909 | 215 |
| Envelope/Props | Properties of envelopes: C27-C33 and C78 (C27, C28, C29, C30, C31, C32, C33, C78) | 817 |
| Exact/Broken | The principle of Müller-Breslau for bending moment and shear (C109): the influence line of an internal force is the deflected shape of the beam that is broken at the point of interest, the two sides being moved against each other by one unit | 976 |
| Exact/Converge | C92: the reported rotations and deflections of slender prismatic members converge to the exact elastic line as the number of stations grows (C92) | 648 |
| Exact/Energy | Energy principles for the whole beam: the analysed deflections minimise the potential energy (C98), the work of the loads is the stored energy and stiffening never increases it (C99) (C98, C99) | 835 |
| Exact/Imposed | C124: imposed curvatures (thermal gradients, shrinkage, creep) | 686 |
| Exact/ImposedAny | C146: imposed curvatures of any degree | 823 |
| Exact/ImposedConverge | C124 for the reported diagrams: shears and bending moments under imposed curvatures are those of the exact solution at every station, rotations and deflections converge to it | 588 |
| Exact/ImposedReport | C146 along the members: with imposed curvatures of any degree the reported shears, moments, rotations and deflections are within a proven distance of the lines of the exact solution | 611 |
| Exact/ImposedShear | C124 for shear-flexible members: a completed analysis of a beam of slender and shear-flexible prismatic members under loads and imposed curvatures of degree at most two is the solution of the continuous problem in which the sections shear and the curvature is that of the bending moment plus the imposed one, and the only one | 1308 |
| Exact/ImposedShearAny | C146 for slender and shear-flexible prismatic members, also pinned at both ends: with imposed curvatures of any degree, the distance of the reported displacements and end forces from the one solution of the continuous problem is bounded | 832 |
| Exact/Mueller | The principle of Müller-Breslau (C100): the influence line of a reaction is the deflected shape of the beam when that support moves by one unit | 561 |
| Exact/Patterns | C120: what load patterning finds | 1000 |
| Exact/Props | C91: a completed analysis of a slender prismatic beam is the solution of the continuous beam problem (`Exact/Spec.lean`), and the only one (C91) | 529 |
| Exact/Report | C91: the reported diagrams are those of the exact solution; concrete cases (C91) | 308 |
| Exact/Shear | C117: a completed analysis of a beam of slender and shear-flexible prismatic members is the solution of the continuous problem of shear-flexible beams, and the only one | 1350 |
| Exact/ShearBroken | The principle of Müller-Breslau for bending moment and shear (C109) on beams with shear-flexible members | 785 |
| Exact/ShearConverge | C118: the reported rotations and deflections of shear-flexible prismatic members converge to the exact lines as the number of stations grows | 512 |
| Exact/ShearEnergy | The energy principles for beams with shear-flexible members: least potential energy, balance of energy, stiffening and the principle of Müller-Breslau (C98, C99, C100), with the energy of bending and of shear (C98, C99) | 1488 |
| Exact/Signs | C119: the signs of the influence lines of the bending moment of a continuous beam on rigid supports: on the span of a section in the middle third the line is positive, and it changes its sign from span to span; for the moment over a support it is negative on both adjacent spans and changes its sign from there on | 830 |
| Exact/SignsShear | C119 fails for spans that are soft in shear: the carry-over factor of a member is `(2 - φ) / (4 + φ)` with `φ = 12 EI / (GAv L²)`, so it is negative for `φ > 2`, and then the signs of influence lines of moments no longer alternate | 43 |
| Exact/Simpson | C144: how accurate the numerical integrals are | 764 |
| Exact/Span | One span of the continuous beam problem: the diagrams of the code are free-body cuts, and the stiffness equation with the fixed-end forces is equivalent to the elastic line | 509 |
| Exact/Spec | The continuous beam problem, stated without any formula of the code: the elastic line of every span obeys `EI θ' = M`, `v' = θ` with the bending moment of a free-body cut, the lines meet the nodes, and the nodes are in equilibrium | 87 |
| Exact/Taper | Beams with members of variable section: the analysis beside the continuous problem | 782 |
| Exact/TaperExists | The continuous beam with tapered members has exactly one state | 1210 |
| Exact/TaperGauss | How exact the flexibility coefficients of a member of variable section are | 911 |
| Exact/TaperReport | C151 along the members: the reported shears, moments, rotations and deflections of beams with tapered members | 768 |
| Exact/TaperSection | The members of variable section of the code are among those of C151 | 265 |
| Exact/WellPosed | C145: the analysis is well posed | 471 |
| Exact/Work | The principle of virtual work for one span: the bending moments of a free-body cut, acting through any deflected shape, do the work of the end forces and the loads | 413 |
| Foundation/Accuracy | C149: how far the analysis of a beam with foundation members is from the continuous beam on a Winkler foundation | 359 |
| Foundation/Balance | C64: balance of a whole foundation member; what is reported along it (C64) | 237 |
| Foundation/Beam | Beams with members on an elastic foundation (`beam.py` 682-752, 884-892, `results.py` 180-186): the complete analysis | 1104 |
| Foundation/Betti | C116: reciprocity of two load cases on a beam with foundation members | 688 |
| Foundation/Cache | C115: the cache of the foundation super-elements | 457 |
| Foundation/Curve | C114: the deflected shape `deflection_curve`, for beams with any mix of foundation members and other members | 774 |
| Foundation/Exists | C149: the continuous beam on its foundation has exactly one state | 451 |
| Foundation/Hold | Beams with members on an elastic foundation, continued | 864 |
| Foundation/Krylov | The exact beam on a Winkler foundation, member by member: the functions of Krylov, and the response to every load the code accepts on a foundation member | 485 |
| Foundation/Loads | C64: restricting the loads of a foundation member to its pieces, and the balance of the whole member (C64) | 558 |
| Foundation/Model | Model of `src/pycba/foundation.py`: the beam-on-elastic-foundation super-element, and of `Beam._foundation` with its uses (`beam.py` 682-714, 738-741, 889-892, `results.py` 180-186) | 242 |
| Foundation/Pointwise | C149 at every point of a foundation member, and with a bound of the shear | 359 |
| Foundation/Props | C64: the foundation super-element (C64) | 385 |
| Foundation/Recover | C81: what is reported along a foundation member (C64, C70, C81) | 537 |
| Foundation/Ritz | A deflected shape and the cubics of a mesh on one piece of a foundation member (for C149) | 214 |
| Foundation/RitzMember | A deflected shape and the recovered line of one foundation member (for C149) | 223 |
| Foundation/Smooth | C149 where the exact shear varies smoothly, and an example | 360 |
| Influence/Complete | C150: when `InfluenceLines.get_il` (`inf_lines.py` 93-195) returns an influence line | 252 |
| Influence/Model | Model of `InfluenceLines` (`src/pycba/inf_lines.py` 20-200) | 143 |
| Influence/Props | C60 and C61: influence lines (C60, C61) | 1026 |
| Load/Calc | Derivatives of Macaulay brackets and of the span diagrams (helper lemmas) | 123 |
| Load/DiagramProps | Properties of the simply supported span diagrams: C02, C09, C10 (C02, C09, C10) | 719 |
| Load/Lemmas | Helper lemmas for the load properties | 123 |
| Load/Model | Model of `src/pycba/load.py`: the load classes, their fixed-end forces, their simply supported span diagrams and the load-matrix helpers | 385 |
| Load/Props | Properties of fixed-end forces: C01, C02, C03, C05-C08 (C01) | 215 |
| Load/ReleaseProps | Properties of released fixed-end forces, scaling, coincidence of load types, mirror symmetry and overhang: C03, C05-C08 (C03, C05, C06, C07, C08) | 684 |
| Load/Spec | Independent specification of what a load *is*: an intensity along the span, point forces and point couples | 61 |
| LoadCases/Comb | C36: combining stored responses and analysing the combined loads give the same arrays (C36) | 810 |
| LoadCases/Model | Model of `src/pycba/load_cases.py` and `src/pycba/pattern.py`: named load cases, combinations, envelopes over subsets of cases, patterned loads | 402 |
| LoadCases/Nested | C121: combinations of combinations; C122: combinations of a collection that changes; C123: the envelope of a collection beside the other envelopes | 751 |
| LoadCases/Pattern | Properties of generated load cases: patterned UDL segments (C40), dead and live load patterns (C42), UDL over a stretch of the beam (C80) (C40, C42, C80) | 940 |
| LoadCases/Plots | Model of `plot_response_envelope` and `plot_load_patterns` (`load_cases.py` 1225-1334) and of `InfluenceLines.plot_il` (`inf_lines.py` 197-237), with C143 | 469 |
| LoadCases/Props | Properties of load case collections: names (C34), factors (C35), envelopes over subsets (C37, C38), target combinations (C39) (C34, C35, C37, C38, C39) | 969 |
| LoadCases/Rows | The load builders of `BeamAnalysis`, `LoadCase` and `LoadCases` (C101), the identifiers of load positions (C102) and the loaded regions shown by `plot_load_patterns` (C103) | 818 |
| Modal/Condense | C70: the mesh of the modal analysis against the stiffness of the static analysis (C70) | 476 |
| Modal/Converge | C148: the natural frequencies of the modal analysis are never below those of the continuous beam, exceed them by at most a term of the order of the square of the element length, and converge to them as the mesh is refined | 410 |
| Modal/Exists | The eigenvalue problem of the modal analysis always has a full solution, so the hypotheses on `eigh` can be met for every beam (for C69, C106 and C107) | 181 |
| Modal/Interp | Interpolation of a deflected shape by the cubic with its end values over one element of the modal mesh: strain energy at most that of the shape, and how far the kinetic energies differ (for C148) | 308 |
| Modal/Model | Model of `src/pycba/modal.py` 27-52 (element matrices) and 186-281 (`_broadcast_mass`, `solve_modal`) | 151 |
| Modal/Order | C106: the natural frequencies of beams compared - stiffer spans, lighter masses, more supports and coarser meshes never lower a frequency - and the zero frequencies | 870 |
| Modal/Plots | Model of `ModalResults.plot_modes` and of the lower panel of `ModalResults.plot_results` (`modal.py` 99-185), with the part of C143 on modes | 211 |
| Modal/Props | Free vibration: consistent mass, modes (C69) and agreement with the static stiffness (C70) (C69) | 836 |
| Modal/Rayleigh | Comparison of the eigenvalues of two symmetric pencils (for C106) | 182 |
| Modal/Refine | Refining the mesh of the modal analysis: the displacements of a mesh are displacements of every finer mesh, with the same strain and kinetic energy (for C106) | 324 |
| Modal/Shape | C107: `ModalResults`, `modal.py` 75-101: frequencies in Hz, periods, the coordinates of the nodes of the mesh and the normalised mode shapes; examples for C106 | 443 |
| Modal/Shapes | Deflected shapes of the continuous beam: which are admissible, their strain and kinetic energy, and their relation to the displacements of the modal mesh (for C148) | 557 |
| Modal/Sines | C148 for the simply supported span: the frequencies of the continuous beam are `((k + 1) π / L)² √(EI / m)`, so those of the modal analysis tend to these | 495 |
| Nonlinear/Balance | C82, C83: equilibrium of the nonlinear analyses, and their elastic range (C82, C83) | 753 |
| Nonlinear/Cases | C84, C85 (supports, collapse) and concrete cases of the nonlinear theorems (C65, C84, C85) | 649 |
| Nonlinear/Limit | C140: the reported load factor and the bounds of plastic limit analysis | 346 |
| Nonlinear/Loads | C68: the nodal load vectors of the nonlinear analysis (C68) | 418 |
| Nonlinear/Mesh | C67: the mesh of the nonlinear analysis (C67) | 514 |
| Nonlinear/Model | Model of `src/pycba/nonlinear.py` 430-1159: the mesh, the load vectors, the Generalized Clough stiffness, the incremental analyses for proportional and for moving loads | 511 |
| Nonlinear/PlotProps | C141: the plots of the nonlinear analysis, and the sign of its moments | 660 |
| Nonlinear/Plots | Model of the plots of `NonlinearResult`, `src/pycba/nonlinear.py` 113-422: the curves, markers, arrows and supports that are drawn and the limits that are set | 130 |
| Nonlinear/State | C65, C66: stiffness factors and hinge events of the nonlinear analyses (C65, C66) | 598 |
| Nonlinear/Verdict | C93: the verdict of the nonlinear analyses (C93) | 354 |
| Plot/Drawings | Model of the drawings of vehicles (`vehicle.py` 125-162), of variable sections (`section.py` 457-521) and of tendons (`prestress.py` 467-538), with C147 | 815 |
| Plot/Model | Model of the result plots: the choice of the backend (`plotting.py` 29-70), the plotly figures (111-283), the matplotlib diagrams of `BeamAnalysis` (`analysis.py` 952-1016 and 1144-1184), the plots of envelopes (`results.py` 911-1069) and the exports (345-375, 824-862) | 288 |
| Plot/Props | C137-C139: result plots show the reported numbers with either backend, envelope plots, and the choice of the backend | 915 |
| Prestress/Equil | C63 continued: the reported moments of a complete analysis, self-equilibrium of the equivalent loads with the anchorage forces, and where the claim fails (C63) | 353 |
| Prestress/Loads | C63: the equivalent loads of a tendon on a simply supported span (C63) | 462 |
| Prestress/Model | Model of `src/pycba/prestress.py`: the tendon profiles and the equivalent loads | 226 |
| Prestress/Props | C62 (tendon profiles) and the moment part of C63 (equivalent loads) (C62) | 515 |
| Prestress/Spans | C86: equivalent loads of a tendon over several spans (C86) | 354 |
| Render/Deck | The deck with the vehicle on it, at the head of the snapshot plots and of the animation (`bridge.py` 875-993) | 465 |
| Render/Loads | C95: the schematic shows the loads that are analysed (C95) | 365 |
| Render/Model | Model of the schematic of `src/pycba/render.py`: what `BeamPlotter` infers from a beam (118-283) and the TikZ commands it writes (884-977, 1033-1156) | 282 |
| Render/Mpl | Model of the matplotlib drawing of `src/pycba/render.py`: `render_mpl` (288-442), `render_reactions_mpl` (444-516), `_ei_depth_profile` (518-549), the support symbols (552-707), the load symbols (710-834) and the dimensions (836-879) | 359 |
| Render/MplBare | C126 for drawings without supports | 193 |
| Render/MplClip | C126: what the schematic draws outside its axes | 315 |
| Render/MplDims | C125: the dimensions of the matplotlib schematic | 247 |
| Render/MplLoads | C125: the arrows of the matplotlib schematic show the loads | 963 |
| Render/MplProfile | C129: the elevation of a non-prismatic beam | 388 |
| Render/MplReactions | C127: the drawing of the reactions; C128: the rounding of their labels | 461 |
| Render/MplView | C126: what the matplotlib schematic draws lies within its axes | 784 |
| Render/Reactions | C97: the reactions drawn at the nodes (`analysis.py` 1032-1061) (C97) | 180 |
| Render/Supports | C94: the schematic shows the supports and hinges that are analysed (C94) | 451 |
| Render/Tikz | C96: the TikZ commands draw the schematic (C96) | 825 |
| Results/Linear | Linearity of the whole chain load matrix → analysis → results along the members, for any number of load cases at once (used for C36, C60) | 407 |
| Results/Meaning | C47, the meaning of the rows of the load matrix, as documented in `load.py` 5-22: what each row puts on its span is stated from the numbers in the row alone (C47) | 109 |
| Results/Model | Model of `BeamResults`, `src/pycba/results.py` 31-323: the results along each member, their concatenation and the query at a coordinate | 243 |
| Results/Order | C47 and C48: the order of the rows of a load matrix, where each row acts, and rows that have no effect (C47, C48) | 516 |
| Results/Props | Properties of the results along the beam: C49, C51, C52, C79 (C49, C51, C52, C79) | 1177 |
| Section/Member | C72: members with a variable section whose segments all have the same rigidity (C72) | 631 |
| Section/Model | Model of `src/pycba/section.py` 48-399: building and evaluating a variable rigidity | 169 |
| Section/Props | C53: building and evaluating a `SectionEI` (C53) | 797 |
| Similar/Image | Two systems one of which is an image of the other: numbering and sense of the degrees of freedom and the units differ, the physics does not | 84 |
| Similar/Mirror | C105: a beam seen from the other side | 512 |
| Similar/MirrorLoads | End forces of the loads of a member seen from the other side (for C105) | 591 |
| Similar/MirrorMember | Member stiffness and end forces of a member seen from the other side (for C105) | 422 |
| Similar/MirrorResults | C105: the results along the members of a beam seen from the other side | 447 |
| Similar/Units | C104: the analysis does not depend on the units | 427 |
| Similar/UnitsMember | Member stiffness and end forces in other units (for C104) | 982 |
| Similar/UnitsResults | C104: the results along the members do not depend on the units, except at the padding stations; the stability check does | 612 |
| Split/Props | Dividing a span by a free node (C50) (C50) | 649 |
| Split/Transfer | Carrying deflection, rotation, shear and moment along a prismatic fixed-fixed member: the stiffness equation of a member is equivalent to a transfer relation, transfer relations compose, and so do the contributions of loads | 375 |
| Stiffness/Lemmas | Vocabulary and helper lemmas for the member stiffness (the property theorems are in `Props.lean`) | 489 |
| Stiffness/Model | Model of the member stiffness code of `src/pycba/beam.py` 869-1622: prismatic, shear-flexible (Timoshenko) and variable-rigidity members, moment releases by static condensation, and the fixed-end forces of shear-flexible members | 349 |
| Stiffness/Props | Properties of the member stiffness and of the forces released at member ends: C04, C11-C15 (C04, C11, C12, C13, C14, C15) | 645 |
| Stiffness/Timo | C76: the fixed-end forces of shear-flexible prismatic members clamp the ends; exactness of Simpson's rule for cubics; the fixed-end forces of imposed curvatures up to degree two (C02, C09, C76) | 465 |
| Units/Model | Model of the choice of display units, `src/pycba/units.py` 26-234 | 90 |
| Units/Props | C71: the choice of display units (C71) | 420 |
