{"id": "C01", "title": "Fixed-end forces are in static equilibrium with the load", "statement": "For a load lying on its span, the fixed-end forces (Va, Ma, Vb, Mb) returned by get_cnl balance the applied load: Va+Vb equals the load's total vertical resultant, and Ma+Mb+Vb*L equals the moment of the load about the left end (minus the couple, for an applied moment).", "quantifier": "every load type (UDL, point, partial UDL, trapezoidal, end moments, point moment), every magnitude, position and extent with the load on the span, every span length L>0", "why_tests_cant": "The six closed forms are rational functions of up to five real parameters with clipping branches; sampled positions never cover the branch boundaries and algebra of all of them.", "anchors": ["src/pycba/load.py:LoadUDL.get_cnl", "src/pycba/load.py:LoadPL.get_cnl", "src/pycba/load.py:LoadPUDL.get_cnl", "src/pycba/load.py:LoadTrapez.get_cnl", "src/pycba/load.py:LoadMaMb.get_cnl", "src/pycba/load.py:LoadML.get_cnl"]}
{"id": "C02", "title": "Fixed-end forces are those of a clamped beam", "statement": "The fixed-end moments returned by get_cnl are the ones that make both ends of a prismatic span clamped: superposing the simply supported moment diagram reported by get_mbr_results with the linear diagram of the end moments gives a moment field M(x) with integral of M = 0 and integral of x*M = 0 over the span (zero end rotations and relative deflection by moment-area).", "quantifier": "every on-span load of each type, every L>0", "why_tests_cant": "The statement is an integral identity over a continuum of stations and parameters.", "anchors": ["src/pycba/load.py:Load*.get_cnl", "src/pycba/load.py:Load*.get_mbr_results"]}
{"id": "C03", "title": "Released-end forces stay in equilibrium with the load", "statement": "For every member type (fixed-fixed, fixed-pinned, pinned-fixed, pinned-pinned) the forces returned by get_ref have zero moment at each released end and keep the same vertical and moment resultant as the load on the span.", "quantifier": "every member type, every fixed-end force set, every L>0", "why_tests_cant": "A sign error in one branch cancels for symmetric loads, which are what examples use; only a universally quantified statement over asymmetric loads exposes it.", "anchors": ["src/pycba/load.py:Load.get_ref", "src/pycba/beam.py:Beam.get_ref"]}
{"id": "C04", "title": "Released-end forces equal static condensation of the clamped element", "statement": "get_ref for a released member type equals what static condensation of the released rotation out of the fixed-fixed element gives: f = f_r - k_rc k_cc^-1 f_c with the fixed-fixed stiffness, for every fixed-end force set.", "quantifier": "every released member type, every EI>0, L>0 and fixed-end force set", "why_tests_cant": "Needs an identity between two independent formulas for all values; sample loads that are symmetric agree even when the formula is wrong.", "anchors": ["src/pycba/load.py:Load.get_ref", "src/pycba/beam.py:Beam.k_FF", "src/pycba/beam.py:Beam.k_FP", "src/pycba/beam.py:Beam.k_PF", "src/pycba/beam.py:Beam.k_PP"]}
{"id": "C05", "title": "Fixed-end forces are linear in the load magnitude", "statement": "Scaling every magnitude in a load matrix by gamma (as factor_LM does) scales the fixed-end forces and simply supported results of every load by gamma; concatenating two load matrices adds their nodal effects.", "quantifier": "all load matrices of supported types, all factors (positive, zero, negative), all member types", "why_tests_cant": "Quantifies over all reals including sign changes that could trip clipping branches.", "anchors": ["src/pycba/load.py:factor_LM", "src/pycba/load.py:add_LM", "src/pycba/load.py:Load.get_ref", "src/pycba/load.py:parse_LM"]}
{"id": "C06", "title": "Overlapping load types agree where they coincide", "statement": "A trapezoidal load with equal intensities gives the same fixed-end forces and the same shear, moment, rotation and deflection as the partial UDL with that extent; a partial UDL covering the whole span equals the UDL; and splitting a partial UDL into two abutting pieces leaves the total fixed-end forces unchanged.", "quantifier": "all intensities, starts, covers within the span, and split points", "why_tests_cant": "Equality of polynomial functions over all parameter values.", "anchors": ["src/pycba/load.py:LoadUDL", "src/pycba/load.py:LoadPUDL", "src/pycba/load.py:LoadTrapez"]}
{"id": "C07", "title": "Mirror symmetry of fixed-end forces", "statement": "Mirroring a load end-for-end about mid-span exchanges Va with Vb and exchanges Ma with -Mb.", "quantifier": "every on-span point load, partial UDL, trapezoidal load, UDL and point moment (with sign reversal)", "why_tests_cant": "An equality for a continuum of positions.", "anchors": ["src/pycba/load.py:LoadPL.get_cnl", "src/pycba/load.py:LoadPUDL.get_cnl", "src/pycba/load.py:LoadTrapez.get_cnl", "src/pycba/load.py:LoadML.get_cnl"]}
{"id": "C08", "title": "A partial load that overhangs the span acts as its on-span part", "statement": "A partial UDL or trapezoidal load that runs past the right end of its span has the effect of the part of it lying on the span, both in the fixed-end forces and in the reported span diagrams; one lying wholly past the end has no effect and raises no error.", "quantifier": "every start a>=0 and cover c>0 and span length, including a>L and a+c>L", "why_tests_cant": "Boundary behaviour over a continuum; the two code paths (fixed-end forces and member results) are checked separately by examples, never against each other.", "anchors": ["src/pycba/load.py:LoadPUDL.get_cnl", "src/pycba/load.py:LoadPUDL.get_mbr_results", "src/pycba/load.py:LoadTrapez._resolve"]}
{"id": "C09", "title": "Span diagrams: moment is the integral of shear and shear of load", "statement": "In the simply supported span results of each load type, V is the derivative of M and -w(x) the derivative of V away from point actions, M vanishes at both span ends, and M is continuous except at an applied couple.", "quantifier": "every load type and parameter, every station away from the point of application", "why_tests_cant": "A differential statement over a continuum of stations.", "anchors": ["src/pycba/load.py:Load*.get_mbr_results"]}
{"id": "C10", "title": "Span diagrams: rotation and deflection integrate the moment", "statement": "In the simply supported span results of each load type the rotation R has derivative M, the deflection D has derivative R, and D vanishes at both ends of the span.", "quantifier": "every load type and on-span parameter, every station away from couples", "why_tests_cant": "A differential statement over a continuum of stations plus boundary conditions for all parameters.", "anchors": ["src/pycba/load.py:Load*.get_mbr_results"]}
{"id": "C11", "title": "Every member stiffness is symmetric", "statement": "The 4x4 stiffness returned for a span is symmetric for every member type, prismatic or shear-flexible (GAv), and on an elastic foundation.", "quantifier": "every member type, every EI, L, GAv, kf>0", "why_tests_cant": "Universally quantified over reals and types.", "anchors": ["src/pycba/beam.py:Beam.get_span_k", "src/pycba/beam.py:Beam.k_timoshenko", "src/pycba/foundation.py:FoundationElement"]}
{"id": "C12", "title": "Rigid-body motion costs no force", "statement": "Without a foundation, a rigid translation or a rigid rotation of a span's two ends produces zero end forces, for the prismatic, shear-flexible and released members of every type.", "quantifier": "every member type, EI, L>0, GAv>0, every translation and rotation amplitude", "why_tests_cant": "Universally quantified over reals and types.", "anchors": ["src/pycba/beam.py:Beam.k_FF", "src/pycba/beam.py:Beam.k_FP", "src/pycba/beam.py:Beam.k_PF", "src/pycba/beam.py:Beam.k_PP", "src/pycba/beam.py:Beam.k_timoshenko"]}
{"id": "C13", "title": "Strain energy of a member is never negative", "statement": "d.k.d >= 0 for the stiffness of every member type and every end displacement, and for the fixed-fixed member it is zero only for rigid-body motion.", "quantifier": "all displacement vectors, all EI>0, L>0, all member types, shear-flexible included", "why_tests_cant": "Positivity for all vectors is not testable by sampling.", "anchors": ["src/pycba/beam.py:Beam.get_span_k"]}
{"id": "C14", "title": "Released stiffness is the condensation of the fixed-fixed stiffness", "statement": "The fixed-pinned, pinned-fixed and pinned-pinned stiffnesses equal the fixed-fixed stiffness with the released end rotations statically condensed out; in particular the released end carries no moment for any displacement.", "quantifier": "all EI, L>0 and member types", "why_tests_cant": "Rational function identity.", "anchors": ["src/pycba/beam.py:Beam.k_FF", "src/pycba/beam.py:Beam.k_FP", "src/pycba/beam.py:Beam.k_PF", "src/pycba/beam.py:Beam.k_PP", "src/pycba/beam.py:Beam._condense"]}
{"id": "C15", "title": "Shear-flexible stiffness reduces to the slender one", "statement": "The prismatic Timoshenko member stiffness equals the inverse flexibility of the bending plus shear deformation of the member, and equals the Euler-Bernoulli stiffness plus a correction that vanishes when the shear parameter Phi is zero; the Euler-Bernoulli stiffness is the stiffer of the two for every displacement.", "quantifier": "all EI, L, GAv > 0 and end displacements", "why_tests_cant": "Quantifies over all section rigidities and vectors.", "anchors": ["src/pycba/beam.py:Beam.k_FF_timo", "src/pycba/beam.py:Beam._timo_flexibility", "src/pycba/beam.py:Beam._shear_flexibility"]}
{"id": "C16", "title": "Prescribed displacements are met exactly", "statement": "After a successful analysis every rigidly restrained degree of freedom has exactly its prescribed displacement (zero if none was given), whatever linear solver is used and whatever values the other restraints have.", "quantifier": "all beams, restraint patterns, prescribed displacement vectors, loads, and all solvers that return a solution of the system they are given", "why_tests_cant": "The elimination loop mutates the matrix in place restraint by restraint; correctness must hold for every interleaving of restrained and free degrees of freedom.", "anchors": ["src/pycba/analysis.py:BeamAnalysis._apply_bc", "src/pycba/analysis.py:BeamAnalysis.analyze"]}
{"id": "C17", "title": "Free degrees of freedom are in equilibrium", "statement": "After a successful analysis the assembled stiffness times the displacements equals the nodal load vector at every unrestrained degree of freedom, including with nonzero prescribed displacements and springs elsewhere.", "quantifier": "all beams, restraint patterns, settlements, loads and solvers", "why_tests_cant": "Invariant of an in-place elimination loop of unbounded length.", "anchors": ["src/pycba/analysis.py:BeamAnalysis._apply_bc", "src/pycba/analysis.py:BeamAnalysis._assemble", "src/pycba/analysis.py:BeamAnalysis._forces"]}
{"id": "C18", "title": "Global vertical equilibrium of reactions", "statement": "The reported vertical reactions (rigid supports and springs) add up to the total applied vertical load, for every analysed beam without an elastic foundation.", "quantifier": "all numbers of spans, member types, lengths, restraint patterns, springs, settlements and loads on the spans", "why_tests_cant": "A sum over an unbounded number of spans and supports; examples cover a handful of layouts.", "anchors": ["src/pycba/analysis.py:BeamAnalysis._reactions", "src/pycba/analysis.py:BeamAnalysis._assemble"]}
{"id": "C19", "title": "Global moment equilibrium of reactions", "statement": "The moment of all reported reactions (vertical and rotational, rigid and spring) about the left end of the beam equals the moment of the applied loads.", "quantifier": "all numbers of spans, member types, lengths, restraint patterns, springs, settlements and on-span loads", "why_tests_cant": "As for vertical equilibrium, with lever arms that depend on all preceding spans.", "anchors": ["src/pycba/analysis.py:BeamAnalysis._reactions", "src/pycba/analysis.py:BeamAnalysis._assemble"]}
{"id": "C20", "title": "Superposition", "statement": "On a given stable beam the displacements, member end forces and reactions for the sum of two load matrices (and of two sets of prescribed displacements) are the sums of the separate ones, and scaling scales them.", "quantifier": "all beams whose restrained stiffness is nonsingular, all pairs of load sets, all solvers", "why_tests_cant": "Linearity in an unbounded family of inputs, through a solver that is a black box.", "anchors": ["src/pycba/analysis.py:BeamAnalysis.analyze", "src/pycba/load.py:add_LM", "src/pycba/load.py:factor_LM"]}
{"id": "C21", "title": "The answer does not depend on the elimination order or the solver", "statement": "If the free-free stiffness is nonsingular then any two linear solvers give the same displacements, and processing the restraints in any order gives the same reduced system.", "quantifier": "all permutations of the restrained degrees of freedom, all solvers, all beams", "why_tests_cant": "Factorially many orders.", "anchors": ["src/pycba/analysis.py:BeamAnalysis._apply_bc"]}
{"id": "C22", "title": "Maxwell-Betti reciprocity", "statement": "For two load cases on the same beam with rigid supports at zero displacement, the work of the first case's nodal loads on the second's displacements equals the work of the second's on the first's.", "quantifier": "all beams (any member types, springs, foundations), all pairs of load cases", "why_tests_cant": "Quantifies over all pairs of load cases and beams.", "anchors": ["src/pycba/analysis.py:BeamAnalysis._assemble", "src/pycba/analysis.py:BeamAnalysis.analyze"]}
{"id": "C23", "title": "The stability check separates mechanisms from solvable beams", "statement": "A beam that can move without straining (a mechanism: nonzero displacement of free degrees of freedom with zero strain energy) is always rejected by the stability check, and any beam it accepts has a nonsingular restrained system with exactly one solution.", "quantifier": "all beams, restraint patterns and member types", "why_tests_cant": "Ranges over all structures; numeric rank tests are usually sampled.", "anchors": ["src/pycba/analysis.py:BeamAnalysis._check_stability", "src/pycba/analysis.py:BeamAnalysis.is_stable"]}
{"id": "C24", "title": "Uniform settlement and rigid tilt cause no internal forces", "statement": "Imposing one common settlement on every vertically restrained node (no rotational restraint, no spring, no foundation, no load), or a common rigid-body motion consistent with all restraints, yields zero member end forces and zero reactions.", "quantifier": "all beams with rigid supports whose free stiffness is nonsingular and all settlement values", "why_tests_cant": "Universally quantified over structures and amplitudes.", "anchors": ["src/pycba/analysis.py:BeamAnalysis._apply_bc", "src/pycba/beam.py:Beam.prescribed_displacements"]}
{"id": "C25", "title": "A failed or unstable analysis does not replace earlier results", "statement": "If an analysis raises (invalid beam, unstable structure, singular system, unsupported load) the previously stored results object is unchanged; results are replaced only when an analysis completes.", "quantifier": "all histories of load, restraint and analyse calls, with failures anywhere", "why_tests_cant": "A property of all operation histories and failure points.", "anchors": ["src/pycba/analysis.py:BeamAnalysis.analyze", "src/pycba/analysis.py:BeamAnalysis._check_stability"]}
{"id": "C26", "title": "The stability verdict used is the one for the current structure", "statement": "Whenever analyze skips the stability check, the structure has not changed since a check that passed: every public edit of spans, restraints or member properties forces the next analysis to check again.", "quantifier": "all interleavings of edits and analyses", "why_tests_cant": "The cache is keyed on a version counter; only a proof over all histories shows no edit escapes it.", "anchors": ["src/pycba/analysis.py:BeamAnalysis.analyze", "src/pycba/analysis.py:BeamAnalysis._check_stability", "src/pycba/beam.py:Beam.structure_version", "src/pycba/beam.py:Beam.restraints"]}
{"id": "C27", "title": "Envelopes bound every analysed result", "statement": "The maximum (minimum) moment, shear and support reaction of an envelope are at least (at most) the value of each individual result at each station.", "quantifier": "all finite non-empty lists of results with equal stations", "why_tests_cant": "Ranges over arbitrary-length lists of arbitrary values.", "anchors": ["src/pycba/results.py:Envelopes._get_envelopes_VM", "src/pycba/results.py:Envelopes._get_envelope_R"]}
{"id": "C28", "title": "Envelope values are attained, and are never beyond zero", "statement": "Each envelope value is either zero or attained by one of the analysed results at that station, so maxima are never negative and minima never positive: the envelope is exactly the extreme over the results together with the unloaded state.", "quantifier": "all finite lists of results", "why_tests_cant": "Arbitrary-length lists.", "anchors": ["src/pycba/results.py:Envelopes._get_envelopes_VM"]}
{"id": "C29", "title": "Coincident values belong to the governing result", "statement": "The coincident shear reported with a maximum moment (and moment with a maximum shear) is that of a result which attains the extreme at that station, or zero when the extreme is zero.", "quantifier": "all finite lists of results, including ties", "why_tests_cant": "Arbitrary-length lists with ties.", "anchors": ["src/pycba/results.py:Envelopes._get_envelopes_VM", "src/pycba/results.py:Envelopes.augment"]}
{"id": "C30", "title": "Envelope extremes do not depend on the order of results", "statement": "Reordering the analysed results leaves the extreme moments, shears and reactions of the envelope unchanged.", "quantifier": "all permutations of all result lists", "why_tests_cant": "Factorially many orders.", "anchors": ["src/pycba/results.py:Envelopes"]}
{"id": "C31", "title": "Augmenting envelopes is the envelope of the union", "statement": "Augmenting (or combining) envelopes gives the same extreme moments and shears as one envelope over all the results together; augmenting is idempotent, commutative and associative on the extremes, and rejects envelopes with different station or support counts without changing anything.", "quantifier": "all families of envelopes of the same beam", "why_tests_cant": "Algebraic laws over unbounded families.", "anchors": ["src/pycba/results.py:Envelopes.augment", "src/pycba/results.py:Envelopes.combine", "src/pycba/results.py:Envelopes.zero_like"]}
{"id": "C32", "title": "The reaction history of merged envelopes is complete or absent", "statement": "After merging envelopes whose analyses differ in number only reaction extremes are kept and the per-analysis reaction history is blank, whatever the order of merging.", "quantifier": "all sequences of merges", "why_tests_cant": "History dependent: whether a later merge refills a blanked history depends on the order.", "anchors": ["src/pycba/results.py:Envelopes.augment"]}
{"id": "C33", "title": "Summed envelopes bound the superposed effects", "statement": "The element-wise sum of envelopes bounds the sum of any choice of one result from each; both ends are attained when independent choices are allowed.", "quantifier": "all families of result lists", "why_tests_cant": "Product of unbounded families.", "anchors": ["src/pycba/results.py:Envelopes.sum", "src/pycba/results.py:Envelopes.combine"]}
{"id": "C34", "title": "Load case names are unique through any history", "statement": "A load case collection never holds two cases with the same name, however cases are added, replaced or appended; a rejected addition leaves the collection unchanged, and replacing a case keeps its position.", "quantifier": "all sequences of add, set, append operations with any names", "why_tests_cant": "Invariant over all histories.", "anchors": ["src/pycba/load_cases.py:LoadCases.add", "src/pycba/load_cases.py:LoadCases.set", "src/pycba/load_cases.py:LoadCases.append"]}
{"id": "C35", "title": "Factor specifications mean what they say", "statement": "A mapping of factors gives exactly the named factor to each named case and zero to the others, unknown names raise, a wrong number of factors raises, and a factor vector is used in case order.", "quantifier": "all case lists and factor specifications", "why_tests_cant": "Arbitrary mappings and lists.", "anchors": ["src/pycba/load_cases.py:LoadCases.factors"]}
{"id": "C36", "title": "Combining responses equals analysing the combined loads", "statement": "The factored combination of the stored case responses equals the response of analysing the combined, factored load matrix directly; cases with zero factor contribute nothing.", "quantifier": "all case collections, factors (including zero and negative) and stable beams", "why_tests_cant": "Relates two different code paths for all inputs.", "anchors": ["src/pycba/load_cases.py:LoadCases.combine", "src/pycba/load_cases.py:LoadCases.combined_loads", "src/pycba/load_cases.py:LoadCases.analyze_combination"]}
{"id": "C37", "title": "Sign-selective envelope is the best over all subsets", "statement": "At each station the sign-selective envelope maximum is the largest total response over all subsets of the cases (and the minimum the smallest), each attained by a subset it reports.", "quantifier": "all response matrices; all 2^n subsets", "why_tests_cant": "Exponentially many subsets for arbitrary n.", "anchors": ["src/pycba/load_cases.py:sign_selective_envelope"]}
{"id": "C38", "title": "Additive envelope is the best over subsets of the given size", "statement": "With n_combine = k, the additive envelope at each station is the largest (smallest) sum of exactly k distinct case responses, and asking for fewer than one or more than available cases raises.", "quantifier": "all response matrices and k", "why_tests_cant": "Combinatorially many subsets; ties.", "anchors": ["src/pycba/load_cases.py:additive_envelope"]}
{"id": "C39", "title": "Target combination attains the extreme at its target", "statement": "With a selected factor at least the unselected one, the combination reported for a target response selects cases so that no other selection of cases gives a larger (for max) or smaller (for min) response at the target.", "quantifier": "all cases, targets and subsets", "why_tests_cant": "Exponentially many subsets.", "anchors": ["src/pycba/load_cases.py:_make_target_combination", "src/pycba/load_cases.py:LoadCases.target_combination"]}
{"id": "C40", "title": "Patterned UDL segments partition the full UDL", "statement": "The cases produced by cutting a UDL into patches cover each span exactly once: their loads added together have the same resultants on every span as the full UDL, each patch lies on its span and has positive length.", "quantifier": "all span lists, segment counts and intensities", "why_tests_cant": "Arbitrary counts and lengths.", "anchors": ["src/pycba/load_cases.py:make_patterned_udl", "src/pycba/load_cases.py:_make_segment_udl", "src/pycba/load_cases.py:make_span_udl_cases"]}
{"id": "C41", "title": "Load cases are analysed on the same structure as the base model", "statement": "The model built to analyse a load case has the base model's spans, section properties, restraints, member types, prescribed displacements, shear areas and foundations; only the loads differ.", "quantifier": "all base models and load cases", "why_tests_cant": "Ranges over all models; one dropped field shows only on models that use it.", "anchors": ["src/pycba/load_cases.py:build_pycba_model", "src/pycba/load_cases.py:analyse_load_case"]}
{"id": "C42", "title": "Load patterning uses the right factors on the right spans", "statement": "Each generated pattern applies every dead and live load exactly once, with the maximum factors on the spans designated by the pattern and the minimum factors elsewhere; patterns are: each adjacent pair, odd spans, even spans, all spans.", "quantifier": "all dead and live load matrices, span counts and factors", "why_tests_cant": "Arbitrary load matrices and spans.", "anchors": ["src/pycba/pattern.py:LoadPattern.to_load_cases", "src/pycba/load_cases.py:_choose_max_by_span"]}
{"id": "C43", "title": "Global to span coordinates are inverted correctly", "statement": "For each position on the beam, the returned span and local coordinate add up to the position, with the local coordinate within the span; positions off the beam are reported as such.", "quantifier": "all span lists and positions, including exactly at supports", "why_tests_cant": "Boundary cases for arbitrary span lists.", "anchors": ["src/pycba/beam.py:Beam.get_local_span_coords"]}
{"id": "C44", "title": "Support descriptions translate to restraints faithfully", "statement": "supports_to_R gives two restraint entries per support in order, each equal to the documented pair for that name (pinned, roller, fixed, free and their one-letter forms) or the spring stiffnesses given, and rejects unknown names and malformed entries.", "quantifier": "all sequences of support specifications", "why_tests_cant": "Arbitrary sequences.", "anchors": ["src/pycba/utils.py:supports_to_R", "src/pycba/utils.py:_support_pair"]}
{"id": "C45", "title": "Beam strings parse to the beam they describe", "statement": "A beam string with n+1 terminals and n lengths yields n spans with those lengths in order, 2n+2 restraints determined by the terminals, and released members exactly left of each hinge; strings that break the grammar raise.", "quantifier": "all strings of the documented grammar", "why_tests_cant": "Infinite language.", "anchors": ["src/pycba/utils.py:parse_beam_string"]}
{"id": "C46", "title": "Building a beam span by span keeps it well formed", "statement": "Adding spans one at a time keeps the number of member properties equal to the number of spans, the restraint vector of length 2n+2, and the total length equal to the sum of span lengths; the result equals building the beam at once.", "quantifier": "all sequences of add_span calls", "why_tests_cant": "Arbitrary sequences.", "anchors": ["src/pycba/beam.py:Beam.add_span", "src/pycba/beam.py:Beam.__init__"]}
{"id": "C47", "title": "Loads act where they say and nowhere else", "statement": "Each row of a load matrix affects only the nodal loads of the two ends of its own span, loads can be listed in any order, and the order does not change any result.", "quantifier": "all load matrices and permutations", "why_tests_cant": "Factorially many orders.", "anchors": ["src/pycba/load.py:parse_LM", "src/pycba/beam.py:Beam.loads", "src/pycba/beam.py:Beam.get_ref", "src/pycba/analysis.py:BeamAnalysis._forces"]}
{"id": "C48", "title": "No load row is silently ignored", "statement": "Every row of a load matrix either contributes its load to the analysis or raises an error.", "quantifier": "all load matrices, including unknown load types and span numbers outside the beam", "why_tests_cant": "Ranges over all malformed inputs.", "anchors": ["src/pycba/load.py:parse_LM", "src/pycba/beam.py:Beam.loads", "src/pycba/beam.py:Beam._set_loads"]}
{"id": "C49", "title": "Reported shears and moments close at member ends", "statement": "Inside each member the reported shear just after the left end equals the nodal member force, the moment just after the left end equals minus the nodal end moment, and just before the right end they match the right-end forces.", "quantifier": "all member types, end displacements, on-span loads", "why_tests_cant": "Relates two code paths for all inputs.", "anchors": ["src/pycba/results.py:BeamResults._member_values", "src/pycba/results.py:BeamResults._member_analysis", "src/pycba/load.py:LoadMaMb.get_mbr_results"]}
{"id": "C50", "title": "Splitting a span at an extra node changes nothing", "statement": "Inserting a free node (no restraint) inside a fixed-fixed prismatic span and dividing the loads accordingly leaves the displacements of the original nodes and the reactions unchanged.", "quantifier": "all spans, split positions and nodal displacement states", "why_tests_cant": "A refinement statement over all split positions and loads.", "anchors": ["src/pycba/beam.py:Beam.k_FF", "src/pycba/load.py:LoadPL.get_cnl", "src/pycba/load.py:LoadUDL.get_cnl", "src/pycba/load.py:LoadPUDL.get_cnl"]}
{"id": "C51", "title": "Querying results at a coordinate returns the value there", "statement": "at(x) returns, for the moment and shear, the value of the piecewise-linear result just to the left of x (or at a station the station's value) for every x on the beam, including the ends.", "quantifier": "all station arrays and query points", "why_tests_cant": "Continuum of query points including duplicates at span boundaries.", "anchors": ["src/pycba/results.py:BeamResults.at", "src/pycba/results.py:Envelopes.at"]}
{"id": "C52", "title": "Result stations are ordered and span each member", "statement": "The concatenated station coordinates are nondecreasing, start at 0, end at the total length, and each member contributes npts+3 stations with zero shear and moment at its padding stations.", "quantifier": "all span lists and npts", "why_tests_cant": "Arbitrary span counts and station counts.", "anchors": ["src/pycba/results.py:BeamResults._concatenate", "src/pycba/results.py:BeamResults._member_values"]}
{"id": "C53", "title": "Variable section profiles are positive, gap-free and total", "statement": "A SectionEI accepts a segment only if it starts where the previous one ended and its EI samples are positive; its coverage is the total length, breakpoints are strictly increasing, every coordinate in the covered range is assigned to a piece, and EI(x) is positive everywhere on the covered range.", "quantifier": "all sequences of segment additions and all query coordinates", "why_tests_cant": "Positivity and totality on a continuum for all histories.", "anchors": ["src/pycba/section.py:SectionEI.add_segment", "src/pycba/section.py:SectionEI.__call__", "src/pycba/section.py:SectionEI.breakpoints"]}
{"id": "C54", "title": "Vehicle axles on the deck are applied once, those off it not at all", "statement": "The load matrix for a vehicle position contains exactly the axles whose position lies on the bridge, each at its own location and weight, so the total applied load is the weight of the on-deck axles.", "quantifier": "all vehicles, bridges and positions", "why_tests_cant": "Continuum of positions times arbitrary vehicles.", "anchors": ["src/pycba/bridge.py:BridgeAnalysis._axle_LM", "src/pycba/beam.py:Beam.get_local_span_coords"]}
{"id": "C55", "title": "The lane load is clear of the vehicle and complete elsewhere", "statement": "The moving lane UDL covers exactly the part of the deck outside the clear zone around the vehicle: its resultant equals intensity times the uncovered length, and no patch overlaps the clear zone.", "quantifier": "all bridges, vehicles, positions and clearances", "why_tests_cant": "Continuum of positions and clearances, several spans.", "anchors": ["src/pycba/bridge.py:BridgeAnalysis._interval_udl_LM", "src/pycba/bridge.py:BridgeAnalysis.run_load_model"]}
{"id": "C56", "title": "Vehicle axle coordinates and reversal", "statement": "Axle coordinates are the cumulative spacings; the vehicle length is the last of them; reversing a vehicle twice gives back the same axle weights and coordinates, and reversal mirrors the axles about the vehicle's middle.", "quantifier": "all vehicles and sequences of in-place and copying reversals", "why_tests_cant": "Arbitrary vehicles and histories.", "anchors": ["src/pycba/vehicle.py:Vehicle", "src/pycba/vehicle.py:Vehicle.reverse"]}
{"id": "C57", "title": "A train contains every axle of its vehicles at the stated spacings", "statement": "make_train yields a vehicle whose axle weights are those of the vehicles in order and whose gaps between consecutive vehicles are the given spacings, and documented spacing arguments are accepted.", "quantifier": "all lists of vehicles and spacings", "why_tests_cant": "Arbitrary lists, including vehicles with coincident axles.", "anchors": ["src/pycba/vehicle.py:make_train"]}
{"id": "C58", "title": "A vehicle run covers the whole crossing at the requested step", "statement": "run_vehicle visits positions start, start+step, ... equally spaced, from first axle at the entry until the last axle has left the bridge (to within half a step).", "quantifier": "all bridges, vehicles, steps and start/end positions", "why_tests_cant": "Continuum of steps, with rounding.", "anchors": ["src/pycba/bridge.py:BridgeAnalysis.run_vehicle"]}
{"id": "C59", "title": "Critical values are the extremes of the run", "statement": "The critical values reported are the maximum/minimum over all envelope stations, at the reported coordinate, and the reported vehicle position and coincident value belong to a result attaining it.", "quantifier": "all envelopes", "why_tests_cant": "Arbitrary arrays with ties.", "anchors": ["src/pycba/bridge.py:BridgeAnalysis.critical_values"]}
{"id": "C60", "title": "Influence lines predict responses by superposition", "statement": "For any set of point loads at influence-line positions, the response at the point of interest equals the sum of load times influence ordinate divided by the unit-load value.", "quantifier": "all beams, sets of loads and points of interest", "why_tests_cant": "Arbitrary sets of loads.", "anchors": ["src/pycba/inf_lines.py:InfluenceLines.create_ils", "src/pycba/inf_lines.py:InfluenceLines.get_il"]}
{"id": "C61", "title": "Influence line abscissae match ordinates after any history", "statement": "get_il returns abscissae and ordinates of the same length, the ordinate i belonging to the load at abscissa i, however often the influence lines are created.", "quantifier": "all sequences of create and get calls with any steps", "why_tests_cant": "History dependent.", "anchors": ["src/pycba/inf_lines.py:InfluenceLines.create_ils", "src/pycba/inf_lines.py:InfluenceLines.get_il"]}
{"id": "C62", "title": "Tendon profiles are continuous through their control points", "statement": "Each tendon profile passes through its stated eccentricities, its pieces meet without a jump, and compound parabolas join with matching slope at the contraflexure points as documented.", "quantifier": "all profile parameters satisfying the documented ordering", "why_tests_cant": "A continuum of parameters; symmetric examples hide asymmetric errors.", "anchors": ["src/pycba/prestress.py:Parabola.segments", "src/pycba/prestress.py:CompoundParabola.segments", "src/pycba/prestress.py:Harp.segments", "src/pycba/prestress.py:DoubleHarp.segments"]}
{"id": "C63", "title": "Equivalent prestress loads reproduce F times eccentricity", "statement": "On a simply supported span, the moment diagram of the equivalent loads plus end moments is -F*e(x) (primary moment) at every section, and the equivalent loads with the end anchorage forces are self-equilibrating.", "quantifier": "all profiles, forces and sections", "why_tests_cant": "Continuum of sections and profile parameters.", "anchors": ["src/pycba/prestress.py:equivalent_loads"]}
{"id": "C64", "title": "Foundation member: condensation preserves equilibrium and load", "statement": "The condensed foundation stiffness is symmetric with nonnegative energy; restricting the loads to sub-elements preserves the total load; and the recovered internal displacements satisfy the full mesh equilibrium for the condensed end forces.", "quantifier": "all subdivision counts, loads and end displacements", "why_tests_cant": "Arbitrary mesh size and loads.", "anchors": ["src/pycba/foundation.py:FoundationElement", "src/pycba/foundation.py:FoundationElement._subelement_loads", "src/pycba/foundation.py:FoundationElement.recover"]}
{"id": "C65", "title": "Nonlinear stiffness factors stay within bounds and only fall", "statement": "Throughout a nonlinear analysis every section stiffness factor stays between the residual value and one and its demand history never decreases.", "quantifier": "all load histories, meshes and iteration counts", "why_tests_cant": "Invariant over unbounded iteration.", "anchors": ["src/pycba/nonlinear.py:NonlinearBeamAnalysis._update_R"]}
{"id": "C66", "title": "Plastic hinge events are unique and chronological", "statement": "Each hinge location is reported at most once, with nondecreasing load factors.", "quantifier": "all histories", "why_tests_cant": "Invariant over unbounded iteration.", "anchors": ["src/pycba/nonlinear.py:NonlinearBeamAnalysis.analyze", "src/pycba/nonlinear.py:NonlinearBeamAnalysis._cluster_hinges"]}
{"id": "C67", "title": "The nonlinear mesh carries each span's own properties", "statement": "Every element of the nonlinear mesh lies within one span, uses that span's EI and plastic moment, and the mesh covers the beam exactly.", "quantifier": "all span lists and mesh sizes", "why_tests_cant": "Arbitrary span lists; an off-by-one at boundaries is invisible for uniform beams.", "anchors": ["src/pycba/nonlinear.py:NonlinearBeamAnalysis.__init__", "src/pycba/nonlinear.py:NonlinearBeamAnalysis._build_mesh"]}
{"id": "C68", "title": "Nonlinear nodal load vectors carry the whole load", "statement": "The vertical entries of the nonlinear load vector add up to the applied load (UDLs and point loads), and load types it does not support are not silently dropped.", "quantifier": "all load matrices", "why_tests_cant": "Arbitrary load matrices.", "anchors": ["src/pycba/nonlinear.py:NonlinearBeamAnalysis._build_force_vector"]}
{"id": "C69", "title": "Modal mass is positive definite and totals the beam mass", "statement": "The consistent mass matrix is symmetric positive definite and assigns the rigid translation the total mass m*L; squared frequencies are nonnegative and modes satisfy the free-vibration equation.", "quantifier": "all span lists, masses and displacement vectors", "why_tests_cant": "Positivity for all vectors.", "anchors": ["src/pycba/modal.py:_m_consistent", "src/pycba/modal.py:solve_modal"]}
{"id": "C70", "title": "Modal and static analyses see the same structure", "statement": "The modal stiffness is the static analysis's stiffness restricted to free degrees of freedom, including springs and any foundation.", "quantifier": "all beams", "why_tests_cant": "Relates two code paths; a difference shows only with features examples do not combine.", "anchors": ["src/pycba/modal.py:solve_modal", "src/pycba/analysis.py:BeamAnalysis._assemble"]}
{"id": "C71", "title": "Unit selection is scoped and total", "statement": "resolve(None) gives the most recently set system, an explicit argument overrides it without changing it, names are insensitive to case and spacing, and unknown names raise and leave the setting unchanged; selecting units never changes computed results.", "quantifier": "all sequences of set and resolve calls", "why_tests_cant": "All histories.", "anchors": ["src/pycba/units.py:set_units", "src/pycba/units.py:resolve"]}
{"id": "C72", "title": "Non-prismatic fixed-end forces do not depend on how the section is described", "statement": "Describing a constant section as one segment or as several abutting segments of the same EI gives the same fixed-end forces, and for a UDL these equal the prismatic ones.", "quantifier": "all spans, EI and split points", "why_tests_cant": "Identity through a quadrature rule over all split points.", "anchors": ["src/pycba/beam.py:Beam._ref_nonprismatic", "src/pycba/section.py:SectionEI.breakpoints"]}
{"id": "C73", "title": "Bridge load effects come from static plus moving loads", "statement": "Every moving-load analysis uses the static loads captured at construction together with the vehicle axles at that position, and leaves the static loads as they were for later runs.", "quantifier": "all sequences of runs", "why_tests_cant": "All histories.", "anchors": ["src/pycba/bridge.py:BridgeAnalysis._single_analysis", "src/pycba/bridge.py:BridgeAnalysis.set_bridge", "src/pycba/bridge.py:BridgeAnalysis.static_LM"]}
{"id": "C74", "title": "Member types are coerced consistently", "statement": "Member type names (any case, surrounding spaces) and codes 1-4 map to the same four types and round-trip; anything else raises.", "quantifier": "all inputs", "why_tests_cant": "Infinite input space.", "anchors": ["src/pycba/types.py:MemberType.coerce"]}
{"id": "C75", "title": "Shear evaluation points avoid supports consistently", "statement": "Resolved shear points are exactly the requested coordinates and the points at the requested distance on either side of a vertical support that lie inside the beam, each once and in order, and the coordinates listed for a member are exactly those of the points within it.", "quantifier": "all span lists, support patterns and offsets", "why_tests_cant": "Arbitrary span lists.", "anchors": ["src/pycba/bridge.py:resolve_shear_points"]}
{"id": "C76", "title": "Fixed-end forces of shear-flexible members clamp the ends", "statement": "For a shear-flexible (Timoshenko) prismatic member the fixed-end forces used by the analysis leave zero rotation and zero deflection at both ends when the bending curvature M/EI and the shear strain V/GAv are integrated along the span.", "quantifier": "all load types, positions, magnitudes, lengths, positive EI and GAv", "why_tests_cant": "Tests compare a few load cases with a refined mesh; an error in one load type or a missing shear term shows only for particular loads.", "anchors": ["src/pycba/beam.py:_ref_timoshenko"]}
{"id": "C77", "title": "Adequate supports make the restrained stiffness nonsingular", "statement": "A beam of fixed-fixed members with positive properties that has rigid vertical supports at two different nodes, or one vertical and one rotational restraint, has a nonsingular restrained stiffness, whatever springs and further restraints it has.", "quantifier": "all numbers of spans, lengths, rigidities, springs and further restraints", "why_tests_cant": "Covers every beam with such supports; tests analyse a finite list of beams.", "anchors": ["src/pycba/analysis.py:_assemble", "src/pycba/analysis.py:_check_stability", "src/pycba/beam.py:get_span_k"]}
{"id": "C78", "title": "Per-span extremes are taken over each member's own stations", "statement": "per_span splits an envelope array at the member boundaries and returns for each member the largest (smallest) value over exactly that member's stations, in member order.", "quantifier": "all envelope arrays and station counts per member", "why_tests_cant": "Covers every station count and array; tests use a few beams with equal counts.", "anchors": ["src/pycba/results.py:Envelopes.per_span"]}
{"id": "C79", "title": "Reported deflections and rotations start at the nodal displacements", "statement": "At the ends of every member the reported deflection and rotation equal the displacement and rotation of the adjoining node.", "quantifier": "all beams, loads, prescribed displacements and resolutions", "why_tests_cant": "Relates the integrated results to the solution for all inputs.", "anchors": ["src/pycba/results.py:BeamResults._member_values"]}
{"id": "C80", "title": "A segment UDL loads exactly its segment", "statement": "The load rows made for a UDL between two global positions put the intensity on exactly the points between them, split at the supports with at most one row per span; a reversed or out-of-range segment is refused.", "quantifier": "all span lists, segment ends and intensities", "why_tests_cant": "Segment ends range over a continuum and interact with tolerances near every support.", "anchors": ["src/pycba/load_cases.py:_make_segment_udl"]}
{"id": "C81", "title": "Moments reported along a foundation member are the moments acting there", "statement": "At both ends of a member on an elastic foundation, and at the nodes of its internal mesh, the reported bending moment is the moment acting at that section: at the member ends it equals the end moments of the condensed member, in particular zero where nothing acts.", "quantifier": "all foundation members, subdivisions, supported loads, end displacements and resolutions", "why_tests_cant": "Holds or fails for a continuum of stiffnesses, loads and displacements; a test only samples fine meshes, where the error is small.", "anchors": ["src/pycba/foundation.py:FoundationElement.recover"]}
{"id": "C82", "title": "Nonlinear moments stay in equilibrium", "statement": "Whatever sections have yielded, and however the analysis ends, the nodal moments of a proportional nonlinear analysis are in equilibrium with the load factor times the load vector at every recorded step, and those of a moving-load analysis with the axle loads at the recorded position.", "quantifier": "all beams, load matrices, vehicles and step counts", "why_tests_cant": "An invariant of an unbounded incremental iteration with changing stiffness.", "anchors": ["src/pycba/nonlinear.py:NonlinearBeamAnalysis.analyze", "src/pycba/nonlinear.py:NonlinearBeamAnalysis.analyze_moving"]}
{"id": "C83", "title": "Before first yield the nonlinear analysis is elastic", "statement": "As long as no section has yielded the displacements of a nonlinear analysis solve the elastic equations for the load factor times the load, with the element matrices of the linear analysis, and the moments are the elastic ones.", "quantifier": "all beams, loads and step counts", "why_tests_cant": "Universally quantified over load histories.", "anchors": ["src/pycba/nonlinear.py:NonlinearBeamAnalysis.analyze", "src/pycba/nonlinear.py:_k_FF"]}
{"id": "C84", "title": "The nonlinear analysis honours the supports", "statement": "The degrees of freedom held in the nonlinear analysis are exactly those of the nodes at restrained supports, and elastic supports act with their stiffness.", "quantifier": "all spans, meshes and restraint vectors", "why_tests_cant": "Arbitrary restraint vectors.", "anchors": ["src/pycba/nonlinear.py:_build_mesh"]}
{"id": "C85", "title": "Collapse is reported exactly when the hinges form a mechanism", "statement": "The mechanism test of the nonlinear analysis is positive exactly when the beam with hinges at the hinge locations admits a motion that respects the supports.", "quantifier": "all beams and hinge patterns", "why_tests_cant": "All hinge patterns on all beams.", "anchors": ["src/pycba/nonlinear.py:NonlinearBeamAnalysis._is_mechanism", "src/pycba/nonlinear.py:NonlinearBeamAnalysis._cluster_hinges"]}
{"id": "C86", "title": "A tendon over several spans acts on each span as its own piece of tendon, anchored at its ends", "statement": "For a tendon running over several spans, the loads on each span have the simply supported moment of -F times the eccentricity measured from the chord of the tendon in that span, and the anchorage couples F*e act where the tendon starts and ends (and wherever the force or the eccentricity changes); a beam without tendon has no equivalent loads.", "quantifier": "all span lists, forces, profiles and sections", "why_tests_cant": "Any number of spans with any profiles; tests use one or two spans fully stressed with one force.", "anchors": ["src/pycba/prestress.py:equivalent_loads"]}
{"id": "C87", "title": "Library vehicles are the documented load models", "statement": "Every getter of the vehicle library returns, for every admissible value of its parameters, a vehicle with the documented number of axles, axle weights, total weight and axle positions, and rejects parameters outside the documented range; the rail models hold for every number of axle groups and every Cooper number.", "quantifier": "all parameter values", "why_tests_cant": "Parameters are real numbers and the number of axle groups is unbounded; tests look at a default or two.", "anchors": ["src/pycba/vehicle.py:VehicleLibrary"]}
{"id": "C88", "title": "Critical shears at shear points are the shears on both sides of the section", "statement": "For every requested shear point the reported left and right shears are the extremes over the run of the shear just left and just right of the section, the overall value is the more extreme of the two, and the section is tagged with its nearest vertical support and side.", "quantifier": "all beams, runs, resolutions and sections on the beam", "why_tests_cant": "Depends on floating station grids and any mixture of sections; tests use a few interior sections.", "anchors": ["src/pycba/bridge.py:BridgeAnalysis.critical_values", "src/pycba/results.py:BeamResults._member_values"]}
{"id": "C89", "title": "A request for shear points applies to its own analysis only", "statement": "The shear points requested in a call are used in that call's analyses and in no other, however the call ends, and the critical values of a run are reported at the shear points of that run.", "quantifier": "all sequences of static, moving and plain analyses, successful or not", "why_tests_cant": "State left behind by exceptional exits and by interleaved calls.", "anchors": ["src/pycba/bridge.py:BridgeAnalysis._apply_shear_points", "src/pycba/bridge.py:BridgeAnalysis.run_vehicle", "src/pycba/bridge.py:BridgeAnalysis.static_vehicle"]}
{"id": "C90", "title": "Envelope ratios compare like with like", "statement": "envelopes_ratios accepts exactly two envelopes of the same bridge and returns at each station and support the ratio of the absolute values, zero where the reference is within 1e-3 of zero.", "quantifier": "all pairs of envelopes", "why_tests_cant": "All pairs of envelopes, including those of different bridges.", "anchors": ["src/pycba/bridge.py:BridgeAnalysis.envelopes_ratios"]}
{"id": "C91", "title": "A completed analysis is the exact solution of the continuous beam problem", "statement": "For every beam of slender prismatic members (with any end releases, springs, prescribed displacements and mechanical loads on the spans), the displacements and end forces of a completed analysis belong to elastic lines that satisfy EI·v'' = M with the bending moment of a free-body cut, meet the nodes, and leave every free degree of freedom in equilibrium; the reported shears, moments and reactions are those of that solution; and for an adequately supported beam there is no other solution.", "quantifier": "all beams, loads, supports and settlements", "why_tests_cant": "Correctness of the whole analysis against the differential equation; tests compare a handful of textbook cases.", "anchors": ["src/pycba/analysis.py:BeamAnalysis.analyze", "src/pycba/beam.py:Beam.get_span_k", "src/pycba/beam.py:Beam.get_ref", "src/pycba/results.py:BeamResults._member_values"]}
{"id": "C92", "title": "Reported rotations and deflections converge to the exact elastic line", "statement": "For every such beam there is a constant, independent of the number of stations and of the shear points, such that the reported rotations and deflections at every station between the padding stations differ from the exact elastic line by at most that constant divided by the number of stations.", "quantifier": "all beams, loads, numbers of stations, shear points", "why_tests_cant": "A limit over all resolutions; tests use one resolution and a tolerance.", "anchors": ["src/pycba/results.py:BeamResults._member_values"]}
{"id": "C93", "title": "A nonlinear analysis ends with the verdict its hinges call for", "statement": "A run that reports collapse ended with hinges forming a mechanism or with a stiffness that cannot be inverted; a run that reports none ended without a mechanism, having reached the requested load factor, the last vehicle position, or the step limit.", "quantifier": "all beams, loads, vehicles, step sizes and iteration counts", "why_tests_cant": "Invariant over unbounded iteration; tests run a few beams to collapse.", "anchors": ["src/pycba/nonlinear.py:NonlinearBeamAnalysis.analyze", "src/pycba/nonlinear.py:NonlinearBeamAnalysis.analyze_moving"]}
{"id": "C94", "title": "The schematic shows the supports and hinges that are analysed", "statement": "For every beam, the support symbol BeamPlotter infers for a node says of the deflection and of the rotation exactly what the analysis does with it (held, sprung or free); each symbol stands at the coordinate of its node, at most one per node; a drawing with a vertical support has either fixed ends and no pin or exactly one pin; and a hinge is drawn at an inner node exactly if one of the members meeting there passes no moment to it.", "quantifier": "all beams, all restraint vectors, all nodes", "why_tests_cant": "Tests compare a few drawings; they cannot cover every combination of restraint values on every number of nodes, nor the pin/roller bookkeeping over arbitrary sequences of supports.", "anchors": ["src/pycba/render.py:183-226 (_infer_supports)", "src/pycba/render.py:260-275 (_infer_hinges)"]}
{"id": "C95", "title": "The schematic shows the loads that are analysed", "statement": "For every beam and load matrix, the distributed load drawn at every point strictly inside a span has the total intensity of the loads of that span, the point loads and couples are drawn with their value at their global coordinate, and nothing but imposed curvatures is left out.", "quantifier": "all beams with positive span lengths, all load matrices, all coordinates", "why_tests_cant": "A claim about every coordinate of the beam and every list of overlapping loads, including the clipping of trapezoidal loads.", "anchors": ["src/pycba/render.py:228-258 (_infer_loads)", "src/pycba/load.py:476-496 (LoadTrapez._resolve)"]}
{"id": "C96", "title": "The TikZ commands draw the schematic", "statement": "For every beam, the names used in the TikZ output are distinct, every name is defined before it is used, the named points are at the coordinates of the nodes and loads they stand for, walls of clamps are on the outer side, the heights of distributed loads follow their intensities, and drawings of beams that differ in the sense of a load or in the continuity at a support differ.", "quantifier": "all beams, any number of nodes and loads", "why_tests_cant": "Name collisions and undefined names depend on the number of nodes and loads, which is unbounded.", "anchors": ["src/pycba/render.py:884-977 (render_tikz)", "src/pycba/render.py:1033-1156 (TikZ helpers)"]}
{"id": "C97", "title": "The reactions drawn at the nodes balance the member ends", "statement": "In every completed analysis the vertical reactions and moment reactions mapped to the nodes are, node by node, what the ends of the members meeting at the node exert on it, and no nonzero reaction is left out.", "quantifier": "all beams whose analysis completes, all nodes", "why_tests_cant": "The two lists of reactions are dealt out to degrees of freedom by two counters; correctness for every interleaving of rigid, sprung and free degrees of freedom needs induction.", "anchors": ["src/pycba/analysis.py:1032-1061 (_reactions_by_node)"]}
{"id": "C98", "title": "The analysed deflected shape minimises the potential energy", "statement": "In every completed analysis the deflected shape belonging to the computed displacements has, among all deflected shapes the supports, settlements and releases of the beam allow, the least potential energy (strain energy of members and springs minus the work of the loads), and for a stable beam no other shape has as little.", "quantifier": "all beams whose analysis completes, all loads, all of the infinitely many admissible deflected shapes", "why_tests_cant": "The minimum is over an infinite-dimensional set of functions.", "anchors": ["src/pycba/analysis.py:406-470 (analyze)", "src/pycba/beam.py:733-1000 (k_FF, k_PF, k_FP)", "src/pycba/load.py:150-760 (get_cnl, get_ref)"]}
{"id": "C99", "title": "Energy balance; stiffening a beam never lets its loads do more work", "statement": "In every completed analysis twice the strain energy is the work of the loads and of the settling supports. If a beam without settlements is made stiffer (larger EI, stiffer springs, further restraints, releases removed) then under the same loads the work of the loads does not grow; in particular the deflection under a single point load does not grow.", "quantifier": "all pairs of beams one of which is stiffer, all loads", "why_tests_cant": "Compares two arbitrary beams under arbitrary loads; monotonicity cannot be sampled.", "anchors": ["src/pycba/analysis.py:406-470 (analyze)", "src/pycba/beam.py:733-1000 (member stiffness)"]}
{"id": "C100", "title": "Influence lines of reactions follow the principle of Mueller-Breslau", "statement": "The reaction reported at a rigid support is minus the work of the loads through the deflected shape obtained by analysing the unloaded beam with that support displaced by one unit; so each ordinate of the influence line of a vertical or moment reaction is the load times the height of that shape at the position of the load.", "quantifier": "all beams without settlements, all rigid supports, all loads, all steps and positions", "why_tests_cant": "Relates two different analyses of an arbitrary beam at every position of the load.", "anchors": ["src/pycba/inf_lines.py:73-95 (create_ils)", "src/pycba/inf_lines.py:119-195 (get_il)", "src/pycba/analysis.py:713-735 (_apply_bc)"]}
{"id": "C101", "title": "Load builders add exactly the load they are asked for", "statement": "After any sequence of calls of add_udl, add_pl, add_pudl, add_ml, add_ic and add_trap for spans of the beam, the analysis sees on every span exactly the distributed intensity, point forces, couples and curvatures asked for; calls by case name append to the case of that name and leave the others alone; the only rejected call is a trapezoidal load with a start and no length, and a rejected call changes nothing.", "quantifier": "all sequences of calls, all arguments, all spans and positions, all case names", "why_tests_cant": "Histories of calls are unbounded and the intensity is a function of a real position.", "anchors": ["src/pycba/analysis.py:278-404 (add_udl ... add_trap)", "src/pycba/load_cases.py:60-143 (LoadCase builders)", "src/pycba/load_cases.py:461-544 (LoadCases builders)", "src/pycba/load.py:1061-1119 (parse_LM)"]}
{"id": "C102", "title": "Load position identifiers make the reported masks readable", "statement": "With the identifiers given by LoadCases.load_positions, the mask reported by the sign-selective envelope at a station tells which load cases are selected there: different selections have different masks.", "quantifier": "all collections of load cases, all responses, all stations", "why_tests_cant": "Quantifies over collections of any size mixing segment cases and other cases in any order.", "anchors": ["src/pycba/load_cases.py:329-342 (load_positions)", "src/pycba/load_cases.py:1000-1030 (sign_selective_envelope)", "src/pycba/load_cases.py:1177-1208 (make_patterned_udl)"]}
{"id": "C103", "title": "The loaded regions shown for a pattern are where its loads act", "statement": "The regions plot_load_patterns draws for a load case cover exactly the points of the beam on which a distributed load of the case acts; a case without distributed loads is shown by the spans it loads.", "quantifier": "all span lengths, all load cases, all positions", "why_tests_cant": "An equality of subsets of the real line for arbitrary loads and spans.", "anchors": ["src/pycba/load_cases.py:773-787 (_load_case_loaded_spans)", "src/pycba/load_cases.py:794-834 (_load_case_loaded_regions)"]}
{"id": "C104", "title": "Results do not depend on the units", "statement": "Describing the same beam and loads in other consistent units of length and force (lengths, loads, rigidities, springs, prescribed displacements and imposed curvatures converted accordingly) gives the same physical results: displacements, reactions, member end forces and the stations, moments, shears, rotations and deflections along the members are the converted values; a beam accepted in one system of units is accepted in every other.", "quantifier": "all beams (all end types, prismatic and non-prismatic, slender and shear-flexible members), all loads, springs and settlements, all positive conversion factors of length and force, all solvers meeting their contract", "why_tests_cant": "Quantifies over conversion factors and beams; a test compares one or two systems of units, for which a dimensionally wrong term may be small.", "anchors": ["src/pycba/analysis.py:406-500 (analyze)", "src/pycba/analysis.py:503-561 (_check_stability)", "src/pycba/beam.py:500-752 (k_*, get_span_k, get_cnl, get_ref)", "src/pycba/load.py:130-1060 (load classes)", "src/pycba/results.py:133-294 (_member_values)"]}
{"id": "C105", "title": "A beam seen from the other side", "statement": "Reversing a beam left to right (order of the spans, end types, rigidities along the spans, restraints, prescribed displacements and loads, with clockwise and anticlockwise exchanged) reverses the results: vertical displacements and reactions are those of the mirrored node, rotations and couples change sign, the end forces of a member are those of its image with the ends exchanged, the stations along the beam are mirrored, moments and deflections there are equal and shears and rotations change sign. The reversed beam can be analysed if the beam can.", "quantifier": "all beams (all end types, prismatic and non-prismatic, slender and shear-flexible members), all loads on the spans, springs and settlements, all numbers of intervals, all solvers meeting their contract", "why_tests_cant": "Quantifies over beams, loads and their images; every formula that treats the two ends of a span separately (fixed-end forces, releases, condensation) is involved, while a test compares a few pairs.", "anchors": ["src/pycba/analysis.py:406-500 (analyze)", "src/pycba/beam.py:500-752 (k_*, get_span_k, get_cnl, get_ref)", "src/pycba/load.py:130-1060 (load classes)", "src/pycba/results.py:133-294 (_member_values)"]}
{"id": "C106", "title": "Natural frequencies of compared beams", "statement": "The natural frequencies are ordered like the structures: if one beam has spans at least as rigid, masses at most as large, supports at least as stiff (rigid or elastic) and is analysed on a mesh at most as fine, then each of its natural frequencies is at least the frequency of the same number of the other beam. The square of the lowest frequency is the least ratio of strain to kinetic energy over all displacements of the mesh that respect the supports. All frequencies are positive exactly if the supports prevent every rigid motion. The frequencies do not depend on the eigenvalue solver or on the number of modes asked for.", "quantifier": "all beams of prismatic spans with positive properties, all masses, restraints, numbers of elements per span, numbers of modes, all eigenvalue solvers meeting their contract", "why_tests_cant": "A comparison of all eigenvalues of two matrices of different sizes over all beams, supports and meshes; a test compares a few pairs of computed numbers.", "anchors": ["src/pycba/modal.py:197-281 (solve_modal)", "src/pycba/modal.py:27-52 (_k_ebeam, _m_consistent)"]}
{"id": "C107", "title": "Reported frequencies, periods, nodes and mode shapes", "statement": "f = omega / 2 pi and the period is its reciprocal, infinite exactly at zero frequency. The node coordinates start at zero, increase, divide every span into nseg equal parts and contain every support. mode_shape returns the deflections of the mode at these nodes, scaled so that the largest in size is +1, whatever the size and sign of the eigenvector.", "quantifier": "all beams, meshes and modes; all eigenvectors and factors", "why_tests_cant": "Quantifies over all spans, meshes and vectors; a test normalises a few.", "anchors": ["src/pycba/modal.py:75-101 (ModalResults, mode_shape)", "src/pycba/modal.py:229-245 (node_x)"]}
{"id": "C108", "title": "A vehicle is the sum of its axles", "statement": "At every vehicle position every moment, shear and reaction is that of the static loads plus, for each axle on the bridge, its weight times the value under a unit force at its place (beyond what settlements alone cause). The envelope of run_vehicle is that of these sums over the positions visited, the envelope of run_load_model that of these sums plus the effect of the lane load, and the effect of a train is the sum of the effects of its vehicles, each at its place.", "quantifier": "all bridges with a unique solution, all static loads, settlements, vehicles, trains, positions, steps, lane loads and clearances, all stations and reactions, all sound solvers", "why_tests_cant": "Relates whole traverses to unit-load analyses for all vehicles and bridges; a test compares a few numbers at a few positions.", "anchors": ["src/pycba/bridge.py:361-447 (run_vehicle)", "src/pycba/bridge.py:471-595 (run_load_model)", "src/pycba/vehicle.py:169-213 (make_train)", "src/pycba/results.py:420-528 (Envelopes)"]}
{"id": "C109", "title": "Influence lines of moment and shear follow the principle of Mueller-Breslau", "statement": "The shear (bending moment) reported at a station is minus the work of the loads through the line of the unloaded beam that is cut at the station and whose right side is raised (turned clockwise) by one unit against its left side. So each ordinate of the influence line of shear or moment is the load times the height of that line at the position of the load, the cut being at the station nearest to the point of interest.", "quantifier": "all beams without settlements, all stations, all loads without a couple at the station, all steps, positions and points of interest", "why_tests_cant": "Relates every ordinate of an influence line to a different continuous problem for an arbitrary beam; a test samples a few ordinates.", "anchors": ["src/pycba/inf_lines.py:73-95 (create_ils)", "src/pycba/inf_lines.py:119-195 (get_il)", "src/pycba/results.py:150-294 (_member_values)"]}
{"id": "C110", "title": "Reactions and foundation pressure carry the loads", "statement": "In a completed analysis of a beam in which any of the spans rest on Winkler foundations, the reported reactions together with the pressure of the foundations under the deflection recovered along their spans balance the applied loads, vertically and in moment about the left end of the beam.", "quantifier": "all beams with any mix of foundation spans and other spans, all loads on their spans, all prescribed displacements at rigid supports", "why_tests_cant": "Exact balance of a condensed mesh of up to 400 pieces per span with an integral of the recovered line, for every beam and loading.", "anchors": ["src/pycba/foundation.py:37-204 (FoundationElement)", "src/pycba/beam.py:716-752 (get_ref)", "src/pycba/beam.py:884-918 (get_span_k)", "src/pycba/analysis.py:447-470 (analyze)"]}
{"id": "C111", "title": "The condensed analysis solves the whole mesh of the foundation beam", "statement": "Static condensation changes nothing: the displacements reported at the nodes and those recovered inside the foundation spans solve the equations of the mesh in which every piece of every foundation span is an element of its own; if the supports leave no mechanism, they are its only solution.", "quantifier": "all beams with any mix of foundation spans and other spans, all loads, restraints and prescribed displacements", "why_tests_cant": "Equivalence of two systems of equations of arbitrary size for every beam.", "anchors": ["src/pycba/foundation.py:37-204 (FoundationElement)", "src/pycba/analysis.py:447-470 (analyze)", "src/pycba/beam.py:682-714 (_foundation)"]}
{"id": "C112", "title": "A foundation holds a beam without supports", "statement": "A beam of fixed-fixed members, at least one of them on a foundation of positive modulus, is never a mechanism: its restrained stiffness is nonsingular with or without supports, and the analysis has a solution for every loading.", "quantifier": "all beams of fixed-fixed members with positive properties, any restraints, springs and loads", "why_tests_cant": "Nonsingularity of a condensed system of arbitrary size.", "anchors": ["src/pycba/foundation.py:37-204 (FoundationElement)", "src/pycba/analysis.py:447-470 (analyze)"]}
{"id": "C113", "title": "Superposition on beams with foundation spans", "statement": "On a beam with foundation spans the results of two load matrices and two sets of prescribed displacements together are the sums of the separate results, also for the displacements recovered inside the foundation spans, and factored loads give factored results.", "quantifier": "all beams with any mix of foundation spans and other spans without a mechanism, all load matrices and factors", "why_tests_cant": "Linearity over all loads, including loads divided between the pieces of the mesh, cannot be sampled.", "anchors": ["src/pycba/foundation.py:112-204 (FoundationElement.ref, recover)", "src/pycba/beam.py:716-752 (get_ref)", "src/pycba/analysis.py:447-470 (analyze)"]}
{"id": "C114", "title": "The deflection curve is the deflected shape", "statement": "deflection_curve returns a curve with nondecreasing abscissae in which the part of each span starts at its left node with the displacement of that node and ends at its right node, contains all stations of the span except the closure points, and has no vertical line: points of a span at the same place have the same deflection, and the deflection of a slender span rises between consecutive points by their distance times the mean of the reported rotations.", "quantifier": "all beams with any mix of foundation spans and other spans, all displacements, resolutions and shear points", "why_tests_cant": "Concerns every point of the curve for every beam; existing tests look at single deflections.", "anchors": ["src/pycba/results.py:325-343 (deflection_curve)", "src/pycba/results.py:96-148 (_concatenate_results, _member_analysis)", "src/pycba/foundation.py:214-236 (recover)"]}
{"id": "C115", "title": "The cache of foundation elements is never stale", "statement": "Whatever spans are added and loads, restraints and prescribed displacements are changed between analyses, an analysis that reuses the cached foundation super-elements gives exactly what an analysis of the same beam without a cache gives.", "quantifier": "all programs of additions, changes, queries and analyses", "why_tests_cant": "All interleavings of changes and analyses.", "anchors": ["src/pycba/beam.py:101-103 (_found_cache)", "src/pycba/beam.py:243 (add_span)", "src/pycba/beam.py:682-714 (_foundation)"]}
{"id": "C116", "title": "Reciprocity on beams with foundation spans", "statement": "For two load cases on one beam with any mix of foundation spans and other spans whose rigid supports do not move, the loads of the first case do the same work through the deflections of the second as those of the second through the deflections of the first; on foundation spans the work is that of the loads at the places where they act, through the recovered deflection. In particular the deflection at x due to a unit load at y equals the deflection at y due to a unit load at x. (Loads on their spans, clear of the tolerances with which partial loads are divided between the pieces.)", "quantifier": "all such beams, all pairs of load matrices, all completed analyses", "why_tests_cant": "Concerns every pair of load cases and every position.", "anchors": ["src/pycba/foundation.py:121-236 (FoundationElement)", "src/pycba/beam.py:682-752 (_foundation, get_span_k)", "src/pycba/analysis.py:603-686 (_forces, _assemble)"]}
{"id": "C117", "title": "A completed analysis of shear-flexible members is the exact solution of the Timoshenko beam problem", "statement": "For every beam of slender and shear-flexible prismatic members (any end releases, springs, prescribed displacements and mechanical loads), the displacements and end forces of a completed analysis belong to lines v, psi that satisfy EI psi' = M and v' = psi - V/GAv with the bending moment and shear of a free-body cut, meet the nodes and leave every free degree of freedom in equilibrium; the reported shears and moments are those of that solution; and for an adequately supported beam there is no other solution.", "quantifier": "all such beams, loads, supports and settlements", "why_tests_cant": "Correctness of the Timoshenko stiffness and load vectors against the differential equations; tests compare a few textbook cases.", "anchors": ["src/pycba/beam.py:Beam.k_timoshenko", "src/pycba/beam.py:1545-1620 (_ref_timoshenko)", "src/pycba/analysis.py:603-686 (_forces, _assemble)"]}
{"id": "C118", "title": "Reported rotations and deflections of shear-flexible members converge to the exact lines", "statement": "For every such beam there is a constant, independent of the number of stations and of the shear points, such that the reported rotations and deflections at every station between the padding stations differ from the exact psi and v by at most that constant divided by the number of stations.", "quantifier": "all such beams, loads, numbers of stations, shear points", "why_tests_cant": "A limit over all resolutions.", "anchors": ["src/pycba/results.py:BeamResults._member_values"]}
{"id": "C119", "title": "Signs of influence lines of bending moment on continuous beams", "statement": "On a continuous beam (rigidly connected prismatic spans on unyielding supports at every node) the influence line of the bending moment at a section in the middle third of a span is non-negative on that span and of opposite sign on neighbouring spans from there; the influence line of the moment at a support is non-positive on the two adjacent spans and of opposite sign on neighbouring spans further on. This holds for the exact lines and for the ordinates that InfluenceLines computes.", "quantifier": "all such beams, spans, stiffnesses, sections, positions of the load, resolutions", "why_tests_cant": "Signs at every position of every beam; a test samples some.", "anchors": ["src/pycba/inf_lines.py:InfluenceLines.create_ils", "src/pycba/inf_lines.py:InfluenceLines.get_il"]}
{"id": "C120", "title": "Load patterning finds the extreme arrangements", "statement": "LoadPattern.analyze considers N + 2 of the 2^N arrangements of maximum and minimum loads over the N spans. For a continuous beam under downward loads the moments it reports at every station in the middle third of a span are the greatest and the least over all 2^N arrangements, and the hogging moments it reports over the supports are the greatest over all arrangements.", "quantifier": "all continuous beams, numbers of spans, downward dead and live loads, load factors, arrangements, stations", "why_tests_cant": "The claim is about all 2^N arrangements on all beams.", "anchors": ["src/pycba/pattern.py:LoadPattern.analyze", "src/pycba/pattern.py:LoadPattern.to_load_cases"]}
{"id": "C121", "title": "Combinations of combinations", "statement": "When load combinations are turned into load cases (LoadCombination.to_load_case) and these are combined again, the response is that of combining the original cases with the products of the factors, both for combined responses (combine) and for the analysis of the combined loads (analyze_combination).", "quantifier": "all beams, collections, combinations, factors, responses, solvers that solve", "why_tests_cant": "Two levels of arbitrary factor mappings over arbitrary collections.", "anchors": ["src/pycba/load_cases.py:LoadCombination.to_load_case", "src/pycba/load_cases.py:LoadCases.combine", "src/pycba/load_cases.py:LoadCases.analyze_combination"]}
{"id": "C122", "title": "Combinations stay what they were while the collection changes", "statement": "A LoadCombination keeps referring to the same cases with the same factors through any later history of operations on the collection: cases added later get factor 0, a combination that no longer fits is refused rather than misread, and added cases do not change its loads.", "quantifier": "all collections, histories of add/set/append/add_load including refused ones, combinations", "why_tests_cant": "Quantifies over histories of unbounded length.", "anchors": ["src/pycba/load_cases.py:LoadCombination._resolve_load_cases", "src/pycba/load_cases.py:LoadCombination.factor_vector", "src/pycba/load_cases.py:LoadCases.factors", "src/pycba/load_cases.py:_make_target_combination"]}
{"id": "C123", "title": "The envelope of a collection beside the additive and sign-selective envelopes", "statement": "LoadCases.envelope has at every station the extremes, with zero, of the rows of the response matrix; it is the additive envelope with one case at a time once zero is included; the sign-selective envelope is never inside it.", "quantifier": "all beams, collections, stations, orders of ties", "why_tests_cant": "Relates three algorithms on all inputs.", "anchors": ["src/pycba/load_cases.py:LoadCases.envelope", "src/pycba/load_cases.py:additive_envelope", "src/pycba/load_cases.py:sign_selective_envelope"]}
{"id": "C124", "title": "Imposed curvatures", "statement": "A completed analysis of a beam under loads and imposed curvatures (thermal gradients, shrinkage, creep) is the solution of the continuous problem in which the curvature of a member is that of its bending moment plus the imposed one: end forces, displacements, shears and bending moments are exact, rotations and deflections converge to it, and there is no other solution. Curvatures that a shape compatible with the supports takes up cause no forces and no reactions.", "quantifier": "all beams of slender prismatic members with any releases, supports, springs and settlements, all loads and imposed curvatures of degree at most two, all station counts and shear points, all sound solvers", "why_tests_cant": "Relates the discrete algorithm to a boundary value problem for all beams, and a limit over all station counts.", "anchors": ["src/pycba/load.py:LoadIC.get_cnl", "src/pycba/load.py:LoadIC._end_moments", "src/pycba/load.py:LoadIC.kappa_imp", "src/pycba/beam.py:Beam._set_loads", "src/pycba/results.py:BeamResults._member_values"]}
{"id": "C125", "title": "The matplotlib schematic draws the loads that act", "statement": "Each point load is drawn by an arrow with its head on the beam at the load's place, coming from above exactly if the load acts downwards, and longer for a greater load; each distributed load by an outline whose height is the same increasing function of the intensity for all loads, with arrows in the direction of the load at its ends and in between; each couple by an arc about its place with an arrowhead in its sense; each magnitude is labelled with its unit. There are no other arrows.", "quantifier": "all beams, load matrices, foundations, unit systems and drawing options for which the drawing completes", "why_tests_cant": "Quantifies over all beams and loads and over every glyph of the drawing; the image itself is normally checked by eye.", "anchors": ["src/pycba/render.py:BeamPlotter.render_mpl", "src/pycba/render.py:BeamPlotter._draw_point_mpl", "src/pycba/render.py:BeamPlotter._draw_dist_mpl", "src/pycba/render.py:BeamPlotter._draw_moment_mpl"]}
{"id": "C126", "title": "The matplotlib schematic fits its axes", "statement": "Every point of everything the schematic draws (beam, supports, foundations, hinges, loads, labels, dimensions) lies within the limits set for the axes.", "quantifier": "all beams with positive lengths and rigidities, all loads on the beam, all foundations, unit systems and drawing options", "why_tests_cant": "Every point of every glyph, for all beams and loads; clipping depends on the combination of supports, loads and options.", "anchors": ["src/pycba/render.py:BeamPlotter.render_mpl", "src/pycba/render.py:BeamPlotter._draw_support_mpl", "src/pycba/render.py:BeamPlotter._draw_foundations_mpl"]}
{"id": "C127", "title": "The drawing of the reactions shows the reactions", "statement": "The arrows drawn by plot_reactions are exactly those of the vertical forces the supports exert on the beam (above a threshold): below the node, pointing up exactly if the force acts upwards, longer for a greater force, labelled to four figures, and within the axes; couples are drawn about their node in their sense and labelled to four figures.", "quantifier": "all analysed beams, sound solvers, unit systems and foundations", "why_tests_cant": "Quantifies over all analyses and over every arrow of the drawing.", "anchors": ["src/pycba/analysis.py:BeamAnalysis.plot_reactions", "src/pycba/render.py:BeamPlotter.render_reactions_mpl"]}
{"id": "C128", "title": "Reactions are labelled to four significant figures", "statement": "The rounded value differs from the value by at most a 2000th of it, has the same sign, and is an integer between 1000 and 10000 in magnitude times a power of ten.", "quantifier": "all numbers", "why_tests_cant": "Infinitely many values of any magnitude.", "anchors": ["src/pycba/render.py:_round_sig"]}
{"id": "C129", "title": "The elevation of a non-prismatic beam shows its rigidity", "statement": "Where the beam is drawn with depth, the cube of the depth is in proportion to the rigidity at every station, stations run from left to right and include both ends of every member; the beam is drawn as a line exactly if its rigidity is uniform to a millionth.", "quantifier": "all beams with positive lengths and non-negative rigidities", "why_tests_cant": "Infinitely many beams and rigidities.", "anchors": ["src/pycba/render.py:BeamPlotter._ei_depth_profile"]}
{"id": "C130", "title": "The animation of a traverse shows the analyses and the running envelope", "statement": "The frames are the positions of the run, in order; in every frame the panels show the bending moment and shear of the analysis with the permanent loads and the axles at that position, the shaded band spans exactly from the least to the greatest value at the positions so far and grows to the full traverse envelope; curve and band always lie inside the axes, which do not change.", "quantifier": "all beams, permanent loads, vehicles, steps and ranges for which the run completes; every frame and station", "why_tests_cant": "Every frame of every run; the frames are images that tests do not read.", "anchors": ["src/pycba/bridge.py:BridgeAnalysis.animate"]}
{"id": "C131", "title": "The deck drawing shows the axle loads of the analysis", "statement": "The drawing of the deck at a vehicle position shows the beam with its permanent loads, a wheel standing on the deck line for each axle, and one downward arrow for each axle load that the analysis at that position applies, at its place, and no others; everything drawn lies within the axes.", "quantifier": "all beams, permanent loads, foundations, unit systems, vehicles and positions for which the drawing completes", "why_tests_cant": "Quantifies over all vehicles and positions (on, partly on and off the deck) and over every point of every glyph.", "anchors": ["src/pycba/bridge.py:BridgeAnalysis._draw_deck_and_vehicle"]}
{"id": "C132", "title": "The caption of the vehicle gives its axle weights", "statement": "Written out, the axle groups of the caption are the axle weights of the vehicle in order, and add up to the total shown.", "quantifier": "all lists of axle weights", "why_tests_cant": "Infinitely many vehicles; grouping uses a tolerance.", "anchors": ["src/pycba/bridge.py:BridgeAnalysis._vehicle_spec"]}
{"id": "C133", "title": "The reactions of an envelope plot are those of its run", "statement": "plot_envelopes shows, for each reaction, its values (positive and negative part) over the front-axle positions of the run that the envelope belongs to, with the governing values marked where they occur; if the history is not available it shows the governing values.", "quantifier": "all bridge analyses, runs and envelopes", "why_tests_cant": "All runs and histories of calls; the mismatch needs two runs that happen to have the same number of positions, or a merged envelope.", "anchors": ["src/pycba/bridge.py:BridgeAnalysis.plot_envelopes"]}
{"id": "C134", "title": "In statically determinate beams forces do not depend on stiffness", "statement": "In a statically determinate beam (no self-equilibrated end forces) the member end forces, reactions, shear forces and bending moments depend only on the loads: rigidities, kind of support, settlements and imposed curvatures do not change them, and settlements and imposed curvatures alone cause none. On every beam without imposed curvatures, multiplying all stiffnesses by a common factor (and dividing settlements by it) leaves all forces unchanged and divides all displacements by the factor.", "quantifier": "all determinate beams with releases, pinned-pinned members unloaded, displacements prescribed at rigid supports; all rigidities, loads, settlements and stations", "why_tests_cant": "Infinitely many beams; compares pairs of analyses that no test enumerates.", "anchors": ["src/pycba/analysis.py:BeamAnalysis.analyze", "src/pycba/beam.py:Beam.get_ref", "src/pycba/beam.py:Beam.get_span_k", "src/pycba/results.py:BeamResults"]}
{"id": "C135", "title": "A finer step gives a wider envelope, which converges", "statement": "The envelope of a vehicle run with the step divided by a whole number contains the envelope of the run with the step itself. As the step goes to zero the envelope converges to the extremes over all positions: for every tolerance there is a step below which no position between start and end, visited or not, has a bending moment beyond the envelope by more than the tolerance; the same holds for the shear at each position before the end of the run.", "quantifier": "all beams, static loads, vehicles, starts, ends, steps and divisors; all positions and tolerances (convergence: beams of slender prismatic members on rigid end supports)", "why_tests_cant": "Statement about all positions of a continuum and about limits; tests compare a few steps.", "anchors": ["src/pycba/bridge.py:BridgeAnalysis.run_vehicle", "src/pycba/results.py:Envelopes"]}
{"id": "C136", "title": "Exactly the ill-posed inputs raise", "statement": "For usable members, enough restraints and a nonsingular system accepted by the stability check, the equations can be set up exactly when every row of the load matrix has its values, starts its partial uniform load no later than the end of its span, and puts imposed curvatures on a member; an analysis then completes exactly when no degree of freedom with both a spring and a prescribed displacement carries a load, and the member results can then be evaluated at any number of stations. A vehicle run completes exactly when moreover the step is not zero and the end is not more than half a step before the start; influence lines complete exactly when the step is not zero.", "quantifier": "all beams, load matrices, solvers that raise for singular matrices only, stations, vehicles, steps, starts and ends", "why_tests_cant": "An equivalence over all inputs: absence of exceptions on infinitely many inputs and their presence on all others.", "anchors": ["src/pycba/analysis.py:BeamAnalysis.analyze", "src/pycba/load.py:parse_LM", "src/pycba/results.py:BeamResults", "src/pycba/bridge.py:BridgeAnalysis.run_vehicle", "src/pycba/inf_lines.py:InfluenceLines.create_ils"]}
{"id": "C137", "title": "Result plots and exports show the reported numbers", "statement": "With either backend, plot_results draws a bending-moment panel with sagging below the zero line, a shear panel and a deflection panel, in this order; the curves have one point for each reported station, in order, with its position and its value, and deflections in the displayed unit; the axes are labelled with the quantity and its unit, without empty brackets; both backends draw the same picture. Single diagrams show the same curves, and into given axes only the curve is added. The exported tables have one row for every station, in order, under the right headers.", "quantifier": "all results, unit systems, backends, requests for single diagrams and requested envelope arrays", "why_tests_cant": "Tests check that figures are created; the claim is about every drawn point of every result and every unit system.", "anchors": ["src/pycba/plotting.py:results_figure", "src/pycba/plotting.py:diagram_figure", "src/pycba/analysis.py:BeamAnalysis.plot_results", "src/pycba/analysis.py:BeamAnalysis._plot_diagram", "src/pycba/results.py:BeamResults.to_dataframe", "src/pycba/results.py:BeamResults.to_csv", "src/pycba/results.py:Envelopes.to_csv"]}
{"id": "C138", "title": "Envelope plots show the extremes, the single analyses and the coincident effects", "statement": "Envelopes.plot draws the greatest and the least moment and shear at every station; with each=True it also draws every enveloped analysis, and all these curves lie between the extremes. plot_coincidents draws beside every extreme the value the other effect has in an analysis that attains it.", "quantifier": "all envelopes made from results, merged by any sequence of augmentations, sums and unions; all stations and unit systems", "why_tests_cant": "Needs an invariant over all ways of merging envelopes; tests only draw an envelope of one run.", "anchors": ["src/pycba/results.py:Envelopes.plot", "src/pycba/results.py:Envelopes.plot_coincidents", "src/pycba/plotting.py:envelope_figure", "src/pycba/results.py:Envelopes.zero_like", "src/pycba/results.py:Envelopes.combine"]}
{"id": "C139", "title": "The backend that is named is the backend that draws", "statement": "A backend name is accepted exactly if it is, up to case, matplotlib or plotly, both as the default (set_backend) and for one call; everything else raises ValueError and leaves the default as it was; a call without a name uses the default, which is always one of the two.", "quantifier": "all names and all sequences of set_backend calls", "why_tests_cant": "Quantifies over all strings and histories of calls.", "anchors": ["src/pycba/plotting.py:set_backend", "src/pycba/plotting.py:get_backend", "src/pycba/plotting.py:resolve_backend"]}
{"id": "C140", "title": "The load factor obeys the bounds of plastic limit analysis", "statement": "The load factor that analyze reports is bounded by limit analysis. Divided by the greatest ratio of final moment to plastic moment it is statically admissible, so it does not exceed the dissipation of any mechanism divided by the work of the loads on it, and a larger factor than that of a mechanism whose hinges have all reached their plastic moments with the right signs is not admissible.", "quantifier": "all beams, load matrices, sound solvers, all runs and all mechanism motions", "why_tests_cant": "Compares the reported factor with all mechanisms and all statically admissible moment fields, which are infinite families.", "anchors": ["src/pycba/nonlinear.py:NonlinearBeamAnalysis.analyze", "src/pycba/nonlinear.py:NonlinearBeamAnalysis._is_mechanism", "src/pycba/nonlinear.py:NonlinearBeamAnalysis._update_R"]}
{"id": "C141", "title": "The plots of the nonlinear analysis show its moments, hinges, loads and shape", "statement": "plot_moments draws for every recorded step and for the end a curve through the moments at all nodes, sagging positive and below the line. plot_hinge_history and plot_beam_state mark exactly the events of the run at their nodes (and factors); the axles on the beam, and no others, are drawn, within the axes. plot_collapse draws the deflected shape with one positive scale, largest ordinate 12 % of the length, and one dot on the shape for each node with a hinge. Supports are drawn where the beam is supported.", "quantifier": "all beams, loads, vehicles, solvers and runs of analyze and analyze_moving_load", "why_tests_cant": "Tests check that figures are returned; the claim is about every drawn point and the sign of every moment.", "anchors": ["src/pycba/nonlinear.py:NonlinearResult.plot_moments", "src/pycba/nonlinear.py:NonlinearResult.plot_hinge_history", "src/pycba/nonlinear.py:NonlinearResult.plot_beam_state", "src/pycba/nonlinear.py:NonlinearResult.plot_collapse", "src/pycba/nonlinear.py:NonlinearResult._draw_beam"]}
{"id": "C142", "title": "The plots of a bridge analysis show the analysis at one position and the ratios of two envelopes", "statement": "plot_static draws the shear and the moment of the analysis with the permanent loads and the axles at the given position, with the values of the analysis, and a dotted line at every axle on the beam and nowhere else. plot_ratios draws whatever envelopes_ratios reports: the ratios of moment and shear at every station and one bar for each reaction.", "quantifier": "all beams, vehicles, positions, permanent loads, solvers, unit systems and pairs of envelopes", "why_tests_cant": "Tests check that axes are returned; the claim is about every drawn point, for every beam, including beams without rigid supports.", "anchors": ["src/pycba/bridge.py:BridgeAnalysis.plot_static", "src/pycba/bridge.py:BridgeAnalysis.plot_ratios", "src/pycba/bridge.py:BridgeAnalysis.envelopes_ratios"]}
{"id": "C143", "title": "The plots of load patterns, of response envelopes, of influence lines and of modes show what was computed", "statement": "plot_load_patterns draws one strip for each case, in order, apart from the others, labelled with its name, whose bars lie within the beam and cover the loaded parts. plot_response_envelope draws the response of each case under its name between the two envelopes, with lines at the span boundaries. plot_il draws exactly the line that get_il gives. plot_modes and ModalResults.plot_results draw the first three modes, or those asked for, numbered from one, with one point at each node, proportional to the mode, within one of the axis and zero at rigid supports.", "quantifier": "all lists of cases, all response matrices, all states of influence lines, all modal results and all requested mode numbers", "why_tests_cant": "Tests check that figures are returned; the claim is about every bar, curve and label.", "anchors": ["src/pycba/load_cases.py:plot_load_patterns", "src/pycba/load_cases.py:plot_response_envelope", "src/pycba/inf_lines.py:InfluenceLines.plot_il", "src/pycba/modal.py:ModalResults.plot_modes", "src/pycba/modal.py:ModalResults.plot_results"]}
{"id": "C144", "title": "Numerical integration of imposed curvatures and of variable sections has a proven error", "statement": "The composite Simpson rule with m panels is within (b-a)^5/(2880 m^4) times the bound of the fourth derivative of the integral of every function with four derivatives. Hence the fixed-end moments of an imposed curvature of any degree are within 6 EI/L times sum |k_i| L^(i+1) i (i-1)^2 (i-2)/1.44e15 of the only end moments that clamp the member, and the end rotations of a simply supported member of variable section are within the Simpson error of each smooth piece, plus what zeroing the curvature at the two ends loses, of the exact ones.", "quantifier": "all functions with four derivatives, all numbers of panels, all coefficient lists, all lengths and rigidities, all variable sections with smooth pieces", "why_tests_cant": "Tests compare a few integrals; the claim is a uniform bound for every curvature and section.", "anchors": ["src/pycba/load.py:LoadIC._end_moments", "src/pycba/beam.py:Beam._ref_nonprismatic"]}
{"id": "C145", "title": "The analysis is well posed", "statement": "For every beam that is not a mechanism there is one constant, depending on members and supports only, by which a change of the fixed-end forces and of the prescribed displacements is at most magnified in nodal displacements, member end forces and reported reactions.", "quantifier": "all beams that are not mechanisms, all pairs of load matrices and of prescribed values at the same degrees of freedom, all solvers that solve", "why_tests_cant": "Tests run single load cases; the claim is one bound for all pairs of load cases.", "anchors": ["src/pycba/analysis.py:BeamAnalysis.analyze", "src/pycba/analysis.py:BeamAnalysis._forces", "src/pycba/analysis.py:BeamAnalysis._solver"]}
{"id": "C146", "title": "Imposed curvatures of any degree are analysed with a proven accuracy", "statement": "For every beam of prismatic members, slender or shear-flexible, that is not a mechanism, the continuous problem under loads and imposed polynomial curvatures of any degree has exactly one solution, and the displacements and end forces of a completed analysis are within a constant, depending on members and supports only, times the integration error of C144 of it. Along the members the reported shears and moments are as near, and the reported rotations and deflections within that plus a constant over the number of stations.", "quantifier": "all such beams, all load matrices, all coefficient lists of imposed curvatures, all prescribed values, all solvers that solve, all numbers of stations and shear points", "why_tests_cant": "Tests use constant and linear curvatures; beyond degree two the integration is approximate and only a bound can be claimed.", "anchors": ["src/pycba/analysis.py:BeamAnalysis.analyze", "src/pycba/load.py:LoadIC._end_moments", "src/pycba/load.py:LoadIC.get_cnl", "src/pycba/results.py:BeamResults._member_values"]}
{"id": "C147", "title": "Drawings of vehicles, sections and tendons show them", "statement": "A vehicle is drawn with one arrow per axle, at the axle, labelled with its weight, higher for heavier axles, over a caption with their sum and their extent. A section of abutting segments is drawn with one outline per piece through values of the section, from end to end, consecutive outlines meeting or joined by a riser. A tendon is drawn exactly if it has equivalent loads, with a mark at each restrained node and one drape per stressed span whose points lie on the tendon, and a positive eccentricity below the centroid.", "quantifier": "all vehicles with nonnegative spacings however often reversed, all sections of abutting segments and any number of points, all beams, forces and profiles", "why_tests_cant": "Tests check that a figure is returned; the claim is about what it shows for every input.", "anchors": ["src/pycba/vehicle.py:plot_vehicle", "src/pycba/section.py:SectionEI.plot", "src/pycba/prestress.py:plot_tendon"]}
{"id": "C148", "title": "The natural frequencies converge to those of the continuous beam", "statement": "For every beam of prismatic members with positive rigidities and masses, every frequency solve_modal returns is at least the corresponding natural frequency of the continuous beam (least bound of strain over kinetic energy among all spaces of admissible shapes of that dimension), exceeds it by a term of order one over the square of the number of elements per span, and tends to it as the spans are divided ever finer. For a simply supported span the limit of the k-th frequency is (k pi / L)^2 sqrt(EI / m).", "quantifier": "all beams of prismatic members, all supports, springs and masses, all numbers of elements per span and of modes, all eigenvalue solvers that solve", "why_tests_cant": "A test compares a few frequencies of a few beams with tabulated values on one mesh; that every frequency of every beam is bounded below and converges at a known rate is a statement about all meshes and about a continuum of shapes.", "anchors": ["src/pycba/modal.py:solve_modal"]}
{"id": "C149", "title": "Foundation members are close to the continuous beam on a Winkler foundation", "statement": "For every beam with members on elastic foundations and every state of the continuous beam (principle of virtual work with bending moments EI c, foundation pressure k w and the loads where they stand), the energy of the difference between that state and the line the analysis recovers is at most the sum over foundation members of (EI + k h^4) times the squared distance of the exact curvature from a linear one on each of the elements auto_subdivisions chooses. Hence everywhere along these members, and at every spring, the deflections differ by no more than a stated multiple of that bound, which is of order h^2 for curvatures that change at a bounded rate and h^4 where the exact shear does; k h^4 is at most EI / 1000 unless the number of elements is capped. The continuous state exists and is unique whenever the equations of the analysis are not singular.", "quantifier": "all beams and supports, all foundation moduli, all loads clear of the element ends, all solvers that solve, all points along the members", "why_tests_cant": "Tests compare a few beams with tabulated closed forms at a few points within tolerances; that the fixed meshing rule bounds the error of every beam, everywhere, in terms of the exact solution alone needs a proof over a continuum of states.", "anchors": ["src/pycba/foundation.py:FoundationElement", "src/pycba/foundation.py:auto_subdivisions", "src/pycba/analysis.py:BeamAnalysis.analyze"]}
{"id": "C150", "title": "Influence lines of reactions are available for every beam with a rigid support", "statement": "For every beam that can be analysed and every point of interest, get_il returns the influence lines of shear and bending moment, and it returns the line of the vertical (moment) reaction exactly if the beam has a rigid vertical (rotational) support, in whatever state earlier calls left the object and however the numbers of the restraints are written.", "quantifier": "all beams, points of interest, load effects and earlier successful calls; restraints written as integers or as floating-point numbers", "why_tests_cant": "Whether a call raises depends on the support nearest the point, on the earlier calls and on the type of every single restraint; tests try a few beams whose restraints are all integers.", "anchors": ["src/pycba/inf_lines.py:InfluenceLines.get_il", "src/pycba/inf_lines.py:InfluenceLines.create_ils"]}
{"id": "C151", "title": "Beams with tapered members are analysed with a proven accuracy", "statement": "For every beam of slender members of variable or constant section that is not a mechanism the continuous beam (curvature equal to bending moment over the rigidity at every point where the rigidity does not jump, equilibrium, supports) has exactly one state, and there is one constant, depending on members and supports only, such that the displacements and member end forces of a completed analysis are within that constant, times the integration errors of the flexibility coefficients and of the primary end rotations of the loads, of those of the continuous beam. The constant does not depend on the integration points, so refining the integration converges to the continuous beam. The shears, moments, rotations and deflections reported along the members obey the same bound, up to an error of one over the number of stations. The hypotheses are met by the section objects of the code.", "quantifier": "all beams with positive rigidities, supports, prescribed displacements and mechanical loads on their spans; all integration points with positive weights; all solvers that solve", "why_tests_cant": "Tests compare a few haunched beams with tables or finer meshes within loose tolerances; that the error is controlled by the quadrature alone, whatever the taper, the loads and the supports, needs a proof against the differential equation.", "anchors": ["src/pycba/beam.py:Beam.k_nonprismatic", "src/pycba/beam.py:Beam._ref_nonprismatic", "src/pycba/beam.py:Beam._flexibility", "src/pycba/beam.py:Beam._gauss_nodes", "src/pycba/section.py:SectionEI.__call__", "src/pycba/results.py:BeamResults._member_values", "src/pycba/analysis.py:BeamAnalysis.analyze"]}
{"id": "C152", "title": "The integration of variable sections has an explicit error", "statement": "The flexibility coefficients of a member with a variable section differ from the exact integrals of the unit moment diagrams over the rigidity by at most, for every piece whose rigidity stays within the fraction r of a value m, twice the length of the piece times r^(K+1)/((1-r)m), with K the quotient of twice the number of Gauss points less three by the degree of the piece, plus 1e-12 over the least rigidity for every joint. Stepped sections are therefore exact but for the joints, and a haunch that varies linearly from a to b is exact up to 2L/min(a,b) times the thirtieth power of |b-a|/(a+b). The shear flexibility obeys the same bound over the square of the length, the primary end rotations the Simpson bound.", "quantifier": "all section objects with abutting segments and positive rigidity, all lengths, all Gauss tables with positive weights that integrate powers below twice the number of points exactly", "why_tests_cant": "Tests compare a few haunches with reference values within loose tolerances; that the chosen number of points is enough for every taper ratio, and how the error grows with the ratio and the degree, needs a proof.", "anchors": ["src/pycba/beam.py:Beam._gauss_nodes", "src/pycba/beam.py:Beam._flexibility", "src/pycba/beam.py:Beam._shear_flexibility", "src/pycba/section.py:SectionEI.__call__", "src/pycba/section.py:SectionEI.add_segment"]}
{"id": "C153", "title": "Stiffer members and supports make a stiffer beam", "statement": "Of two members of the same length, the one with the larger rigidity, no more shear flexibility and no more moment releases stores at least as much energy at the same end displacements. Of two unloaded beams with the same prescribed displacements, the one whose members and supports are nowhere softer needs at least as much work from its supports; with a single settlement the force that holds it, taken in its direction, is nonnegative and not smaller in the stiffer beam. Under the same loads with the same fixed-end forces and no prescribed displacements, the reversed fixed-end forces do nonnegative work on the nodal displacements, and no more in the stiffer beam.", "quantifier": "all members with positive rigidities (prismatic, variable, shear-flexible, any releases), all end displacements, all beams, supports, springs, prescribed displacements, sound solvers", "why_tests_cant": "Monotonicity compares every pair of beams; tests compare a few results with reference values and would not notice a stiffness that falls when a rigidity or a spring grows in some combination of member types.", "anchors": ["src/pycba/beam.py:Beam.get_span_k", "src/pycba/beam.py:Beam.k_nonprismatic", "src/pycba/beam.py:Beam.k_timoshenko", "src/pycba/beam.py:Beam._condense", "src/pycba/analysis.py:BeamAnalysis._apply_bc"]}
