#!/usr/bin/env python3
"""Writes MANIFEST.json. One entry per property."""
import json
C=[]
def c(prop,status,theorems,note=""):
    C.append(dict(property=prop,status=status,theorems=["NimbleSM."+t for t in theorems],note=note))
c("C01","proved",["Mpi.initialize_succeeds","Mpi.vector_reduction_sums","Mpi.vector_reduction_unshared","Mpi.vector_reduction_completes_poll","Mpi.vector_reduction_can_finish","Mpi.field_size_accepted_iff","Mpi.sendBuffer_wide_refused"],"MPI_Comm_split, MPI_Iallreduce, MPI_Test modelled by their MPI contract; values in any commutative monoid (exact arithmetic).")
c("C02","proved",["Mpi.clique_numbering_spec"])
c("C61","proved",["Mpi.partition_boundary_spec"])
c("C03","proved",["Mpi.packIDSpace_spec","Mpi.packIDSpace_overflow"])
c("C04","proved",["Mpi.groupConsecutive_spec","Mpi.groups_unique"])
c("C05","proved",["Mpi.serialization_round_trip","Mpi.pack_vector_round_trip","Mpi.pack_avoid_resize_round_trip","Mpi.sendpacked_recvpacked"],"Pointer types (T*, array<T*>) are not modelled.")
c("C06","proved",["Mpi.catenateGatherv_spec","Mpi.catenateGathervFormat_spec"])
c("C07","partial",["Mpi.gather_not_correct","Mpi.gather_correct_iff_equal_lengths_partial"],"The full property is false of the code; refuted by gather_not_correct. Proved: correct iff all ranks contribute equally long vectors.")
c("C08","partial",["Mpi.sendpackedStatic_overreads","Mpi.sendpackedStatic_in_bounds_iff_partial","Mpi.sendpackedStatic_content_partial"],"The full property is false of the code; refuted for every object of two bytes or more. Proved: the exact condition under which the call stays in bounds.")
c("C16","proved",["LU.lu_solve_correct","LU.lu_solveSystem_correct"],"Any linearly ordered field, any n.")
c("C17","partial",["LU.lu_singular_not_reported","LU.lu_completes_nonsingular_partial","LU.lu_zero_row_reported_partial"],"The full property is false of the code; refuted by lu_singular_not_reported. Proved: nonsingular matrices are never reported, and a matrix with a zero row is always reported.")
c("C54","proved",["Tensor.multScalarFull33_spec","Tensor.sumFull33Full33_spec","Tensor.sumSym33Full33_spec","Tensor.multFull33Full33_spec","Tensor.multSym33Full33_spec","Tensor.multScalarFull33Full33_spec","Tensor.multFull33Sym33ReturnT_spec","Tensor.squareFull33TFull33_spec","Tensor.squareFull33Full33T_spec","Tensor.rotateSym33_spec","Tensor.unrotateSym33_spec","Tensor.rotate_unrotate","Tensor.symPart_skewPart_spec","Tensor.determinantFull33_spec","Tensor.crossProduct_spec","Tensor.normSq_spec","Tensor.zero_setEqual_spec","Tensor.invertFull33_spec","Tensor.invertFull33_of_det_pos","Tensor.invertFull33_accepts_singular","Tensor.invert3x3_spec","Tensor.bch_spec","Tensor.bchSym33Full33_spec"])
c("C55","proved",["Tensor.padeCos_accurate","Tensor.eigenSym33_pade","Tensor.polarLeftLogVLame_pade","Tensor.polarDecomp_pade","Tensor.eigenSym33_exact_partial","Tensor.polarDecomp_correct_partial","Tensor.polarLeftLogVLame_correct_partial"],"The _pade theorems are about the code's own rational function, for every symmetric tensor (also nearly isotropic ones). The _partial theorems are the error-free statements for the exact function cos(acos(x)/3) and tensors that are exactly isotropic or above the code's relative isotropy threshold 1e-30. Floating-point rounding is not modelled.")
c("C56","partial",["Strings.stringsAreEqual_wrong","Strings.stringsAreEqual_iff_prefix","Strings.stringsAreEqual_same_length_partial"],"The full property is false of the code; refuted by stringsAreEqual_wrong.")
c("C23","proved",["Hex.shape_values_spec","Hex.shape_derivatives_spec","Hex.shape_partition_of_unity","Hex.shape_derivatives_sum_zero","Hex.shape_kronecker","Hex.shape_linear_and_nonneg"],"All parametric points; the tables of values and derivatives equal the trilinear functions and their gradients at every integration point.")
c("C24","proved",["Hex.deformation_gradients_defined","Hex.deformation_gradient_affine","Hex.deformation_gradient_superposed"],"Every element with positive Jacobians, every affine motion, and every further affine motion superposed on any motion.")
c("C25","proved",["Hex.nodal_forces_defined","Hex.nodal_forces_virtual_work","Hex.nodal_forces_sum_zero","Hex.nodal_forces_moment_zero"],"Every element and stress field; virtual work identity also proved.")
c("C27","proved",["Hex.tangent_defined","Hex.tangent_symmetric","Hex.tangent_row_sum_zero","Hex.tangent_rigid_motion","Hex.tangent_force_consistent","Hex.tangent_energy_nonneg"],"Also linearised rotations and positive semidefiniteness.")
c("C28","partial",["Hex.characteristic_length_correct_partial","Hex.characteristic_length_translation_partial","Hex.characteristic_length_translation_refuted","Hex.characteristic_length_closed_form","Hex.characteristic_length_ge","Hex.characteristic_length_le"],"FALSE in general (running maxima start at 0): refuted by a concrete element; proved for elements reaching a nonnegative coordinate in each direction; never an underestimate.")
c("C29","proved",["Hex.volume_spec","Hex.volume_average_uniform","Hex.volume_average_between","Hex.volume_average_weighted"],"Every element for which the routine succeeds.")
c("C30","partial",["Constitutive.elastic_stress_spec","Constitutive.elastic_stress_reference","Constitutive.elastic_stress_isotropic","Constitutive.elastic_stress_linear","Constitutive.elastic_tangent_spec","Constitutive.neohookean_stress_free","Constitutive.neohookean_dilatation","Constitutive.neohookean_stress_formula_partial","Constitutive.neohookean_pressure_partial","Constitutive.neohookean_objective_partial","Constitutive.element_tangent_symm_psd","Constitutive.neohookean_stress_pade"],"Elastic part and stress-free reference state complete for the code as written; with the code's own rational approximation the neo-Hookean stress is exactly that of a nearby deformation gradient (neohookean_stress_pade). The error-free neo-Hookean formula, pressure and objectivity inherit the hypotheses of the _partial theorems of C55 (exact cos(acos(x)/3) in place of the Pade approximant; tensor not within the 1e-30 isotropy tolerance).")
c("C31","proved",["Constitutive.offNominal_spec","Constitutive.history_spec","Constitutive.pointLoop_val"],"Every sequence of calls, any constitutive law.")
c("C32","partial",["Constitutive.material_string_parse_partial","Constitutive.material_created_partial","Constitutive.unknown_parameter_rejected","Constitutive.unknown_model_rejected","Constitutive.missing_parameter_rejected","Constitutive.non_numeric_value_accepted","Constitutive.missing_value_overreads","Parse.tokenize_words","Parse.stringToDouble_literal"],"Two parts are FALSE of the code: non-numeric values are read as 0, a missing value reads past the token vector (both proved).")
c("C33","proved",["Fields.removePrefix_addPrefix","Fields.hasPrefix_addPrefix","Fields.labelToIpt_addPrefix","Fields.addPrefix_injective"],"Every nonnegative number, not only below 100.")
c("C34","partial",["Fields.componentLabels_length","Fields.componentLabels_nodup_partial","Fields.componentLabel_eq_partial","Fields.componentLabels_full2_duplicate","Fields.componentLabel_full2_mismatch","Fields.componentLabel_generic_mismatch"],"FALSE for 2D full tensors and generic lengths (both refuted); proved for the rest.")
c("C35","proved",["Fields.history_succeeds_iff","Fields.history_ids","Fields.history_id_eq_iff","Fields.history_ids_dense","Fields.history_stable","Fields.history_field","Fields.getFieldId_found","Fields.getFieldId_unknown","Fields.getFieldId_undeclared","Fields.getFieldId_second_spelling"],"Every history of declarations.")
c("C36","proved",["Fields.nodeDataForOutput_values","Fields.history_wellFormed","Fields.history_nodeDataForOutput","Fields.elementDataForOutput_values","Fields.elementDataForOutput_unknown","Fields.blockArrayLength_eq"],"Under the necessary hypothesis that the component label is unambiguous (nodeDataForOutput_collision shows what happens otherwise).")
c("C37","partial",["Fields.initializeElementData_values","Fields.initial_deformation_and_stress_partial","Fields.state_variables_not_initialised"],"The state variable part is FALSE of the code: refuted for every name and nonzero value. Identity deformation gradient and zero stress proved.")
c("C62","proved",["Fields.elementLabels_nodup","Fields.elementLabels_getElem?","Fields.determineDataOffsets_eq"],"Three dimensions.")
c("C63","proved",["Fields.specifyOutputFields_known","Fields.specifyOutputFields_sound","Fields.specifyOutputFields_no_abort","Fields.specifyOutputFields_node","Fields.specifyOutputFields_node_component","Fields.specifyOutputFields_element","Fields.double_blank_aborts"])
c("C18","proved",["Solver.access_listed","Solver.access_unlisted","Solver.access_injective","Solver.access_row_out_of_range","Solver.setEntry_spec","Solver.empty_row_breaks_lookup"],"Any previous use of the container; empty_row_breaks_lookup shows the no-empty-row hypothesis is needed.")
c("C19","proved",["Solver.matVec_spec","Solver.diagMatVec_spec","Solver.populatePreconditioner_spec","Solver.innerProduct_eq","Solver.allocateDiagonal_spec","Solver.allocateDiagonal_places"],"Serial build (no MPI_Allreduce in InnerProduct).")
c("C20","proved",["Solver.modifyTangent_crs","Solver.modifyTangent_dense","Solver.modifyRhs_spec","Solver.constrained_solution","Solver.modifyTangent_traction_throws"],"Both matrix types. Hypothesis: every condition has a known node set; modifyTangent_traction_throws shows it is needed.")
c("C21","proved",["Solver.nonzeroStructure_defined","Solver.nonzeroStructure_spec","Solver.nonzeroStructure_symmetric","Solver.nonzeroStructure_admissible"])
c("C22","proved",["Solver.cg_spd","Solver.cg_spd_exact","Solver.cg_success","Solver.cg_iterations","Solver.cg_residual_invariant","Solver.cg_converged_reported_as_failure"],"Exact arithmetic over any linearly ordered field.")
c("C64","proved",["Solver.assembleTangent_spec","Solver.assembleTangent_order","Solver.unattached_node_breaks_assembly"])
c("C65","partial",["Solver.cg_success_partial","Solver.cg_negative_limit","Solver.cg_indefinite_false_success","Solver.cg_singular_divides_by_zero"],"FALSE of the code in general (three refutations). Proved: with a non-negative limit and no division by zero, success implies that the preconditioned residual is within the tolerance.")
c("C26","proved",["Hex.lumped_mass_total","Hex.lumped_mass_pos","Hex.lumped_mass_defined","Assembly.lumped_mass_sum","Assembly.lumped_mass_field_defined","Assembly.lumped_mass_conserved","Assembly.lumped_mass_field_pos"],"Element and assembled mesh, starting from the zero array.")
c("C40","proved",["Integrate.prescribed_displacement_met","Integrate.step_spec","Bc.governs_velocity"],"Every force law with internal state, any number of steps; time step positive.")
c("C41","partial",["Integrate.outputs_meet_conditions","Integrate.prescribed_velocity_displacement","Bc.governs_velocity","Bc.free_dof_untouched","Integrate.free_dof_step","Bc.initial_velocity_spec","Integrate.velocity_after_every_step_refuted","Integrate.initial_output_velocity_refuted"],"Two parts are FALSE of the code: after the second half step of a step that is not written the velocity is not the prescribed one, and the initial output evaluates the expression at time 0 instead of the initial time (both refuted). Proved: every later output shows the prescribed velocity, the displacement is the accumulated sum, free degrees of freedom are untouched.")
c("C42","proved",["Integrate.explicit_times","Integrate.explicit_rejects","Integrate.explicit_frequency_zero","Integrate.explicit_finishes"])
c("C43","proved",["Integrate.momentum_conserved","Integrate.mesh_momentum_conserved"],"Any force law with zero resultant; and the hexahedral mesh model in particular.")
c("C44","proved",["Integrate.verlet_step","Integrate.verlet_reversible"])
c("C45","proved",["Assembly.internal_force_defined","Assembly.internal_force_sum","Assembly.internal_force_order","Assembly.internal_force_outside","Assembly.internal_force_work","Assembly.internal_force_resultant","Assembly.internal_force_moment"])
c("C66","proved",["Assembly.parallel_defined","Assembly.parallel_assembly_eq_serial"],"Uses the reduction theorem of C01.")
c("C67","partial",["Assembly.critical_time_step_spec","Assembly.critical_time_step_parallel_refuted","Assembly.lumped_mass_twice"],"FALSE over several ranks (no reduction) and for a second call (masses double); both proved. Proved: minimum over all elements of one rank.")
c("C68","proved",["Integrate.mesh_angular_momentum_conserved","Integrate.angularMomentum_step","Assembly.internal_force_moment"])
c("C46","partial",["Integrate.quasistatic_convergence_refuted","Integrate.load_step_converged_partial","Integrate.residualNorm_bounds","Integrate.residualNorm_blind"],"FALSE of the code: refuted for every tolerance, limit and residual size. Proved: the first num_nodes unknowns are below a 21st of the tolerance.")
c("C69","proved",["Integrate.quasistatic_prescribed_displacement","Integrate.quasistatic_prescribed_velocity","Integrate.linearSolve_held","Solver.cg_decoupled_zero"])
c("C70","partial",["Integrate.residual_vector_spec","Integrate.id_gap_out_of_bounds"],"Proved for ids that are a renumbering of 0..N-1; for every other set of distinct ids the arrays are overrun (proved).")
c("C71","partial",["Integrate.quasistatic_times","Integrate.quasistatic_rejects","Integrate.load_step_converged_partial","Integrate.quasistatic_limit_zero","Integrate.converged_at_limit_fails","Integrate.negative_limit_succeeds"],"Schedule and rejection proved; status 0 implies the tested criterion for non-negative limits; the other parts are FALSE of the code (three refutations).")
c("C72","partial",["Integrate.stale_element_data","Integrate.secant_state_partial"],"FALSE of the code: refuted by a run. Proved: the element data are those of the secant step, and differ from the accepted displacement only when the full step is strictly better.")
c("C38","partial",["Deck.deck_pairs_partial","Deck.whitespace_line_out_of_range","Deck.long_line_loops_forever","Deck.empty_value_out_of_range","Deck.tab_stays_in_value","Deck.no_colon_key_is_value","Deck.carriage_return_stays"],"FALSE of the code as stated: six refutations. Proved: a deck of empty lines, column-0 comments and key : value lines of at most 999 characters yields exactly its pairs in order, for every handler, and the loop ends.")
c("C39","partial",["FileName.rank_name_form_partial","FileName.rank_names_sorted_partial","FileName.thread_names_distinct","FileName.blank_in_name_all_ranks_collide","FileName.suffix_inside_path_cuts"],"FALSE of the code for names with white space and for .g/.e inside a path (refuted); proved for all other names and all rank counts, and for the thread-safe variant without restriction on characters.")
c("C73","proved",["Deck.deck_settings","Deck.deck_accepted_iff","Deck.deck_order_irrelevant","Deck.scheme_checked","Deck.atof_literal","Deck.atoi_decimal"],"Complete for the build without BVH and UQ; numbers are exact decimals.")
c("C74","partial",["Deck.deck_materials_partial","Deck.blockProperties_blockValue","Deck.same_number_overwrites","Deck.unnumbered_block_is_zero"],"FALSE of the code when names end in equal numbers or in no number (refuted); proved for names ending in different numbers.")
c("C48","proved",["Expr.optimize_eval","Expr.optimizeB_eval","Expr.functor_eval"],"Any arithmetic (no laws on the operations are used), so also for floating point.")
c("C50","partial",["Expr.parse_inside_partial","Expr.parse_terminates_partial","Expr.empty_condition_outside","Expr.leading_equals_outside","Expr.not_outside","Expr.not_recurses_forever"],"FALSE of the code in general (four refutations). Proved: texts without '?' are never read outside, and texts without '!' are parsed with recursion depth at most their length.")
c("C75","proved",["Expr.assign_throw_unchanged","Expr.reachable_ofText","Expr.copy_eval","Expr.copyAssign_eval","Expr.copyAssign_default_throws","Expr.assignAll_last","Expr.parse_case","Expr.default_eval_throws"],"Exceptions of std::stod for out-of-range literals are not modelled.")
c("C47","proved",["Expr.parse_print","Expr.functor_print","Expr.huge_exponent"],"For every arithmetic in which whole numbers read as int and as double agree and == is symmetric; operands are variables or parenthesised.")
c("C49","partial",["Expr.conventional_partial","Expr.functor_conventional_partial","Expr.sign_before_power","Expr.exponent_sign_taken","Expr.exponent_sign_refused","Expr.sign_after_product","Expr.e_before_minus","Expr.blanks_in_parentheses","Expr.power_in_condition","Expr.remainder_of_sum","Expr.huge_exponent"],"FALSE of the code in general (refutations by kernel evaluation). Proved: every text of the grammar Conv (conventional precedence and grouping, blanks around operators, any letter case, with one marked side condition per refutation) evaluates to its conventional value, in exact arithmetic.")
c("C51","proved",["Uq.closure_spec","Uq.closure_exact_unchanged","Uq.closure_forgets","Uq.closure_reproduces","Uq.closure_selects"])
c("C52","proved",["Uq.scaled_parameters_distinct","Uq.scaled_parameters","Uq.initialize_spec","Uq.repeated_parameter"],"For distinct names as stated; scaled_parameters says what happens for repeated ones (repeated_parameter is an instance).")
c("C53","partial",["Uq.reduction_partial","Uq.reduction_in_range_iff","Uq.reduction_out_of_range"],"FALSE of the code without approximate samples (proved); proved with at least one.")
c("C76","partial",["Uq.sample_file_read","Uq.sample_file_shape","Uq.wrong_exact_refused","Uq.missing_exact_repeated","Uq.missing_line_repeated","Uq.missing_line_refused","Uq.missing_file_undefined","Uq.stoi_range"],"Reading of well-formed files and shape of every accepted file proved; that a file with missing lines is refused is FALSE of the code (missing_exact_repeated).")
c("C77","partial",["Uq.sample_standalone_partial","Uq.selecting_sample_follows","Uq.sample_force","Uq.sample_ignores_prescribed_displacement","Uq.sample_ignores_contact"],"FALSE of the code with prescribed displacements or contact (both refuted). Proved for all other boundary conditions, against the run without contact, one rank, any number of steps.")
c("C78","partial",["Uq.parameters_exist_iff","Uq.shared_material_has_no_parameters","Uq.material_without_line_has_no_parameters"],"FALSE of the code in general (two refutations); the exact condition is proved.")
c("C79","partial",["Uq.column_order_partial","Uq.column_order","Uq.columns_not_in_deck_order","Uq.ten_before_two"],"FALSE of the code (refuted); proved when the lines are in alphabetical order of the material keys; the actual order is proved for every deck.")
c("C80","proved",["Uq.nominal_undisturbed","Uq.ustep_nominal"],"One rank; runs that complete.")
c("C09","proved",["Contact.mesh_contact_balance","Contact.enforce_resultant","Contact.enforce_untouched","Contact.enforce_order_irrelevant","Contact.enforce_single","Contact.contactForce_exists","Contact.contactForce_deterministic","Contact.contact_resultant_zero","Contact.contact_untouched"],"enforce_*: any list of interactions; contact_*: the whole ComputeSerialContactForce of the ArborX serial manager, any order of the atomic additions.")
c("C10","proved",["Contact.decomposition_exists","Contact.projection_spec","Contact.inside_iff","Contact.inside_outputs","Contact.degenerate_never_inside"])
c("C13","proved",["Contact.serialize_in_bounds","Contact.serialize_roundtrip","Contact.received_fields","Contact.received_loses"],"received_loses lists what is not transmitted (forces, local id, contact status).")
c("C14","proved",["Contact.triangle_box_contains","Contact.triangle_box_tight","Contact.node_box","Contact.near_boxes_intersect","Contact.shallow_penetration_found","Contact.deep_penetration_missed"],"deep_penetration_missed shows the limit: a node the projection would accept can be outside the inflated box.")
c("C60","proved",["Contact.apply_displacements_spec","Contact.get_forces_spec"])
c("C81","proved",["Contact.contact_moment_zero","Contact.mesh_contact_balance"])
c("C82","proved",["Contact.contact_conservative","Contact.signedDistance_eq","Contact.signedDistance_deriv"])
c("C83","proved",["Contact.contact_pushes_out"])
c("C11","proved",["Contact.skinBlocks_spec","Contact.mem_skin","Contact.mem_allFaces","Contact.skinBlocks_order","Contact.skin_of_repeated_block"],"skin_of_repeated_block: a block listed twice has no skin or aborts.")
c("C12","proved",["Contact.entityId_injective","Contact.entityId_decode","Contact.entityId_ne_node","Contact.triangle_ids_distinct","Contact.entityId_negative","Contact.entityId_collision"],"For element id + largest node id below 2^26; beyond, ids become negative and collide (proved).")
c("C59","proved",["Contact.submodel_spec","Contact.created_wellFormed","Contact.contactModel_exists"])
c("C84","proved",["Contact.parallel_skin","Contact.parallel_skin_eq_serial","Contact.removeInternal_spec","Contact.parallel_abort_missed"],"parallel_abort_missed: without the hypothesis the ranks do not notice a face of three elements.")
c("C85","proved",["Contact.contact_normal_outward"])
c("C86","partial",["Contact.contact_node_unique_partial","Contact.contact_node_owner","Contact.contact_node_missing"],"FALSE of the code (contact_node_missing). Proved: at most one rank; exactly the smallest rank holding the node if the node is on its own secondary skin.")
c("C15","partial",["Contact.contact_command","Contact.contact_command_read","Contact.contact_command_refused_partial","Contact.contact_command_without_number"],"Exact acceptance criterion and result of the contact command, for every text. FALSE as stated in one part, refuted by contact_command_without_number: a command without a penalty number is accepted and the caller's penalty stays uninitialised.")
c("C58","partial",["Genesis.block_lookup_partial","Genesis.get_block_id","Genesis.max_node_global_id","Genesis.unknown_block_ignored","Genesis.duplicate_name_dropped","Genesis.element_type_of_data","Genesis.of_data_lookup"],"Exact result of the look-up for every mesh and list of names; FALSE as stated for unknown names (ignored) and blocks sharing a name (only the first is found), both refuted.")
c("C87","proved",["Genesis.bounding_box","Genesis.bounding_box_empty"],"Exact arithmetic. bounding_box_empty: what is returned for a mesh without nodes.")
c("C88","partial",["Genesis.mesh_read","Genesis.sets_read_partial","Genesis.node_set_without_factors"],"FALSE for node sets stored without distribution factors (node_set_without_factors); proved for the rest.")
c("C89","partial",["Genesis.output_mesh_partial","Genesis.node_set_names_lost"],"FALSE for the names of node sets (node_set_names_lost); proved for the rest.")
c("C90","partial",["Genesis.text_mesh_partial","Genesis.text_mesh_no_output","Genesis.sixteen_digits"],"Round trip proved with coordinates as printed; two refutations.")
c("C57","proved",["Views.vector_view_bijection","Views.scalar_view_bijection","Views.kokkos_view_bijection","Views.view_zero","Views.scalar_view_zero","Views.view_copy","Views.view_axpy","Views.view_assignTo"])
c("C91","partial",["Views.kokkos_update_partial","Views.kokkos_view_bijection","Views.left_layout_first_component_only"],"FALSE for the column layout (refuted); proved for storage by rows.")
c("C92","partial",["Bc.bc_line_number","Bc.bc_line_expression","Bc.bc_line_accepted","Bc.bc_list_partial","Bc.bc_line_without_number","Bc.bc_line_bad_number","Bc.unknown_set_ignored"],"Proved for lines with a number or expression; acceptance implies kind, set, coordinate and legal quotes. FALSE for missing and unreadable numbers and unknown sets (three refutations).")
c("C93","partial",["Bc.traction_has_no_effect"],"FALSE of the code: refuted for every explicit run. Nothing positive holds.")
c("C94","proved",["Contact.parallel_deterministic","Contact.parallelForce_exists","Contact.parallel_resultant_zero","Contact.parallel_moment_zero","Contact.parallel_eq_serial","Contact.reduced_force_is_serial","Contact.bvh_eq_arborx","Contact.bvhForce_exists"],"Exact real arithmetic. The tree libraries (ArborX DistributedTree, bvh) are specified, not modelled: every pair with intersecting boxes is found, callbacks run at least once per pair, outputs are delivered once per pair. The distribution hypothesis (each contact entity on one rank, with the characteristic length of the serial one) is explicit.")
c("C95","partial",["Kokkos.concurrent_internal_force_eq_serial","Kokkos.concurrent_internal_force_deterministic","Kokkos.concurrent_internal_force_exists","Kokkos.concurrent_distributed_force_eq_serial","Kokkos.concurrent_lumped_mass_eq_serial","Kokkos.concurrent_lumped_mass_exists","Kokkos.inverted_element_mass_refuted","Kokkos.inverted_element_serial_aborts","Kokkos.plain_add_loses_update","Kokkos.run_atomicAdd"],"Full agreement with the serial assembly for all interleavings (each memory access is one indivisible step; exact arithmetic). FALSE for the last sentence: the Kokkos build does not stop on an inverted element (inverted_element_mass_refuted: negative nodal masses), while the serial build aborts. plain_add_loses_update shows why the atomic views are needed.")
c("C96","proved",["Kokkos.Registry.registry_refines","Kokkos.Registry.registry_accepts","Kokkos.Registry.field_id_stable","Kokkos.Registry.field_id_injective","Kokkos.Registry.allocate_returns_id","Kokkos.Registry.unknown_label_throws","Kokkos.Registry.reallocation_replaces","Kokkos.Registry.scalar_vector_ipt_never_readable"],"Refinement of the registry to a table from (place, label) to fields, for all histories. Limits shown: allocating a label again replaces its storage (reallocation_replaces); scalar and vector integration-point data can be allocated but no getter ever returns them (scalar_vector_ipt_never_readable).")
c("C97","partial",["Kokkos.Registry.initializeBlocks_returns","Kokkos.Registry.initial_state","Kokkos.Registry.updateStates_advances_partial","Kokkos.Registry.updateStates_with_state_variables_fails","Kokkos.Registry.unrotated_stress_is_stress"],"Full for materials without state variables. FALSE when a material has state variables: UpdateStates then never returns (updateStates_with_state_variables_fails: symmetric-tensor, scalar and vector states are fetched as full tensors). stress and unrotated_stress are the same field.")
c("C98","partial",["Kokkos.Output.element_results_spec","Kokkos.Output.node_results_spec","Kokkos.Output.short_ipt_request_fails","Kokkos.Output.nonexistent_point_refuted","Kokkos.Output.point_nine_outside","Kokkos.Output.volume_not_allocated_fails"],"Full for the volume, plain labels and ipt01..ipt09 up to the number of integration points. FALSE for points that do not exist (nonexistent_point_refuted: ipt00 and ipt10 give columns of zeros, ipt11 gives point 1, because the index is read one character late; point_nine_outside: ipt09 reads outside the view). A request that starts with ipt and is shorter than six characters ends the run.")
c("C99","partial",["Kokkos.Coherence.mirrored_run","Kokkos.Coherence.shared_kernel_coordinates","Kokkos.Coherence.shared_memory_masses","Kokkos.Coherence.separate_memory_masses_vanish"],"Full for displacement, velocity, forces, element output, both memory arrangements (mirrored_run), and for coordinates when memory is shared (Serial, OpenMP, unified memory). FALSE for the coordinates when memory is separate: they are written on the host only and never copied, so all masses are zero (separate_memory_masses_vanish).")
c("C100","partial",["App.exit_zero_iff","App.finalized_iff","App.failures_reported","App.help_only_prints_refuted","App.help_alone_reads_empty_deck"],"Full for the status without a help request. FALSE for help requests (the simulation runs as well; without an input file the deck with the empty name is read). After an exception MPI and Kokkos are not shut down (failures_reported, finalized_iff); an exception from the deck reader is not caught. CLI11 is represented by stated rules.")
c("C101","partial",["App.cli_accepted","App.cli_unsupported","App.cli_no_input","App.uq_never_selected","App.use_uq_turns_on_vt","App.use_uq_selects_uq_refuted"],"Full for Tpetra, the input file and rejections. FALSE for --use_uq, which sets the VT variable (nimble_cli.cc:101): UQ is never selected, VT is turned on even where it was not built. CLI11 is represented by stated rules.")
c("C102","partial",["App.quasistatic_never_completes","App.quasistatic_completes_refuted"],"FALSE: no start of the application completes a quasistatic deck, in any build; it is refused (status other than 0). The property proved is that it is always refused.")
c("C103","partial",["App.contact_backend_ignored","App.contact_kind_iff","App.base_contact_force_zero","App.base_contact_force_defined","App.base_contact_force_fresh"],"Full for the freshness of the forces (base manager). FALSE for the choice: the backend key is ignored, and in a build without ArborX (and BVH with VT) the contact force is zero for every mesh and displacement.")
c("C104","partial",["Tensor.log_rotation_correct_partial","Tensor.log_rotation_angle_partial","Tensor.log_rotation_half_turn_unwritten","Tensor.log_rotation_refuted","Tensor.log_rotation_pi_spec","Tensor.log_rotation_pi_refuted"],"Proved (with the matrix exponential of Mathlib) for every rotation whose cosine is at least 10 eps above -1. FALSE for half turns: Log_Rotation leaves the output unwritten; Log_Rotation_Pi returns a logarithm exactly if the y or z component of the axis is not tiny, and ends the program for the x axis. Exact arithmetic.")
c("C105","proved",["Fields.derived_output","Fields.derived_requests","Fields.derived_between","Fields.duplicate_volume_column"],"Serial model data, eight-point hexahedron, exact arithmetic. If volume is requested several times, the last request is the one filled (duplicate_volume_column); Exodus output writes by name, so the file still holds the volume.")
c("C106","partial",["ExodusOut.results_readable","ExodusOut.writeStep_defined","ExodusOut.long_name_overflows"],"Proved for all names of at most 32 characters (build with Exodus; the library is represented by the arrays it stores). FALSE for longer names: they overflow the fixed buffers of InitializeDatabase (long_name_overflows).")
c("C107","proved",["Contact.closest_point_nearest","Contact.closest_point_in_triangle","Contact.closest_point_exact","Contact.closest_point_face","Contact.closest_point_edge","Contact.closest_point_reports_face","Contact.simple_closest_point_iff","Contact.closest_points_batch","Contact.simple_closest_point"],"Exact arithmetic over any ordered field (the simple variant over the reals).")
c("C108","partial",["Contact.visMesh_spec","Contact.visualization_shows_contact","Contact.visualization_node_ids_partial","Contact.visualization_elem_ids","Contact.visualization_ids_refuted"],"Proved in full except for the node ids, which are distinct if the largest entity id M satisfies 4M+11 < 2^31. FALSE for larger ids: the int expression 3*id+M+9 overflows (modelled as wrap-around) and the ids collide (visualization_ids_refuted). Exact arithmetic.")
c("C109","partial",["Contact.contact_report_partial","Contact.contact_report_empty_without_visualization","Contact.contact_report_refuted","Contact.contact_report_late","Contact.contact_report_late_refuted"],"FALSE: the count is read from the host copy of the faces, which only a visualization step refreshes. Proved: exactly what the report holds (contact_report_partial); it is empty without visualization, and one step late with visualization at every step.")
c("C110","proved",["Integrate.explicit_energy_balance","Integrate.explicit_stable","Integrate.explicit_velocity_bound","Integrate.explicit_unstable"],"Exact arithmetic, forces linear in the displacements with a symmetric stiffness (no contact, no external force), no constraints.")
c("C111","partial",["Integrate.guided_run_stable_partial","Integrate.guided_run_aborts","Integrate.reported_step","Integrate.reported_step_unstable","Integrate.reported_step_refuted"],"FALSE: the reported step uses the sound speed sqrt(bulk/density) and ignores the shear modulus. For one cubic element guided along an axis the exact limit is proved with the full element, material, assembly and integrator model: stable below h/sqrt((bulk+4/3 shear)/density), abort above it for every nonzero initial velocity; the reported step is above it for every material.")
c("C112","proved",["Hex.area_eq_faces","Hex.uniform_stress_force","Assembly.areas_cancel","Assembly.patch_test","Assembly.patch_test_parallelepipeds","Assembly.patch_test_bound","Assembly.patch_test_code","Hex.gaussVal_rounded"],"Exact arithmetic.  patch_test: with the Gauss point at 1/sqrt 3 the force is zero.  For the literal 0.577350269189626 of the code: zero on meshes of parallelepipeds, and below 7e-14 R^2 smax per element corner on all meshes.")
c("C113","proved",["Assembly.volume_interior","Assembly.mass_interior","Assembly.mass_interior_bound","Assembly.mass_interior_code"],"Exact arithmetic.  mass_interior: with the Gauss point at 1/sqrt 3.  mass_interior_code: with the literal of the code the change is below 4e-13 rho R^3 per element.")
c("C114","proved",["Integrate.axes_independent","Assembly.internal_force_transformed","Assembly.lumped_mass_transformed"],"Exact arithmetic, serial, no contact; neo-Hookean blocks: with the exact cosine of the eigenvalue solver and at deformation gradients whose principal stretches it resolves (as C30).")
c("C115","proved",["Integrate.numbering_independent"],"Exact arithmetic, serial, no contact; neo-Hookean blocks as in C114.")
c("C116","proved",["Integrate.units_independent"],"Exact arithmetic, serial, no contact; neo-Hookean blocks as in C114. Conditions given by formulas are covered by the hypothesis that the formula gives the converted value.")
c("C117","proved",["Integrate.galilean_invariant"],"Exact arithmetic, serial, no contact; neo-Hookean blocks as in C114.")
c("C118","proved",["Integrate.uniform_motion","Integrate.translated_force"],"Exact arithmetic, serial, no contact.")
c("C119","partial",["Assembly.internal_force_objective_partial","Assembly.elastic_turned_force"],"Proved for neo-Hookean blocks (domain as in C30). FALSE for the elastic material, which uses the small strain of the full deformation gradient: every mesh of elastic blocks with positive bulk moduli has internal forces after any rotation other than the identity (elastic_turned_force).")
c("C120","partial",["Assembly.internal_power","Assembly.internal_work_partial","Assembly.neohookean_derives","Integrate.elastic_no_energy"],"Proved for neo-Hookean blocks (domain as in C30; strain energy given explicitly). FALSE for the elastic material, whose small-strain stress acts on the current configuration: for 3 bulk != 8 shear the forces of a single cube derive from no energy (elastic_no_energy).")
c("C121","proved",["Assembly.internal_force_relisted","Assembly.lumped_mass_relisted","Assembly.critical_time_step_relisted","Assembly.volume_average_relisted","Assembly.tangent_relisted","Assembly.mirrored_refused","Integrate.run_relisted","Hex.symmetry_exists"],"Over exact real arithmetic (sums are reordered).")
c("C122","proved",["Integrate.image_of_motion","Integrate.image_of_constrained_motion","Integrate.symmetric_motion","Integrate.symmetric_constrained_motion","Integrate.symmetry_plane","Assembly.internal_force_mapped","Assembly.lumped_mass_mapped"],"Exact arithmetic, serial, no contact; at most one condition per degree of freedom; neo-Hookean blocks as in C114.")
c("C123","proved",["Integrate.kinetic_energy_balance","Integrate.kinetic_energy_at_least","Integrate.mesh_energy_balance","Integrate.mesh_acceleration","Integrate.mesh_forces_exist"],"Exact arithmetic. Velocities of constrained degrees of freedom are excluded: between output steps they hold the half-step value.")
c("C124","partial",["Contact.interactions_add_up_partial","Contact.interactions_resultant_partial","Contact.interactions_serial_partial","Contact.interactions_race","Contact.interactions_add_up_refuted","Contact.shares_area","Contact.force_acts_at_closest_iff"],"False as stated: interactions_race gives, for any two nodes on one face, a schedule with resultant F1 - F0. What holds is proved for all schedules that keep calls about one node or face apart.")
c("C125","partial",["Tpetra.tpetra_reduction_partial","Tpetra.tpetra_reduction_refuted","Tpetra.selectedRank_least","Tpetra.transfer"],"False as stated: data with other numbers of components are treated as scalars (tpetra_reduction_refuted). What holds is proved for all histories. The semantics of Tpetra import, export and createOneToOne are assumptions written out in Mpi/Tpetra.lean.")
c("C126","partial",["Tpetra.tangent_pattern_partial","Tpetra.num_nonzeros_iff","Tpetra.num_nonzeros_refuted","Tpetra.replace_value_aborts"],"False as stated: no value can ever be entered, and shared pairs are counted repeatedly. The pattern is proved right. Tpetra graph and matrix semantics are assumptions written out in Mpi/TpetraMatrix.lean.")
c("C127","partial",["Contact.bounding_box_exact_partial","Contact.longest_edge_exact","Contact.average_length_refuted"],"False as stated for ranks without contact nodes (average_length_refuted). Exact arithmetic.")
c("C128","proved",["Integrate.half_model","Integrate.half_model_runs","Integrate.half_model_case"],"Elastic and neo-Hookean hexahedra without contact; exact arithmetic.")
c("C129","proved",["Hex.oriented_tangent_defined","Hex.zero_strain_rigid","Constitutive.energy_zero_iff_rigid","Constitutive.hourglass_has_energy","Constitutive.one_point_rule_blind"],"Exact arithmetic.")
c("C130","proved",["Solver.supported_spd","Solver.diagonalEntry_pos","Solver.linear_step_succeeds","Solver.linear_step_tolerance","Solver.supported_body_solved","Solver.stack_solved"],"Serial linear system (CRSMatrixContainer), exact arithmetic; the code's iteration limit is 1000, so the guarantee covers up to 999 unknowns.")
c("C131","partial",["Newton.element_force_deriv","Newton.tangent_is_derivative_partial","Newton.tangent_not_derivative","Newton.cube_tangent"],"proved for elastic blocks in the undeformed state, for every mesh, node numbering and direction; the property is false in stressed states (the geometric part of the stiffness is missing): proved for a stretched elastic cube with any positive moduli")
c("C132","proved",["Integrate.explicit_converges","Integrate.elastic_forces_near","Integrate.explicit_run_converges","Integrate.explicit_result_converges","Integrate.guided_cube_converges","Integrate.loaded_start"],"exact arithmetic, elastic blocks, one rank, no contact; the existence of the smooth motion is the hypothesis (met by the guided cube, whose motion is given in closed form); loaded_start is the exact error under a constant force present at the start")
c("C133","partial",["Timing.regions_reported_partial","Timing.flat_regions_reported_partial","Timing.nested_region_wrong","Timing.reentered_region_wrong","Timing.elapsed_accumulates","Timing.timer_elapsed"],"false of the code for nested regions with Kokkos and for re-entered regions without; proved for all other histories")
c("C134","partial",["Timing.timing_data","Timing.reduction_time_zero"],"proved for the total, the sums and the bound; the vector reduction column is always 0 (proved); build without Kokkos, exact arithmetic")
c("C135","partial",["Timing.microsecond_sorted","Timing.nanosecond_sorted","Timing.timing_files_distinct","Timing.millisecond_goes_back"],"proved for microsecond and nanosecond stamps, given that strftime's dates sort; false for millisecond stamps (proved)")
c("C136","partial",["Kokkos.work_arrays_distinct_when_resize_allocates","Kokkos.work_arrays_distinct_iff","Kokkos.work_arrays_independent_when_resize_allocates","Kokkos.work_arrays_independent_partial","Kokkos.shared_pair_force","Kokkos.work_arrays_shared_refuted"],"Finding: InitializeGatheredVectors fills its vectors with copies of one handle of extent 1 and relies on Kokkos::resize to make a new allocation for each block. With a resize that leaves views of the right extent alone (recent releases) all blocks of exactly one element share their work arrays, and the stress divergence of each is evaluated on the element of the last of them (shared_pair_force; refutation on a two-cube mesh). Proved: allocations distinct iff resize always allocates or at most one block has one element, and then every execution gives the serial forces (this also discharges the separate-arrays assumption of C95).")
c("C137","partial",["NonFinite.norm_nan","NonFinite.norm_ignores","NonFinite.accepted_not_greater_partial","NonFinite.nan_step_accepted","NonFinite.nan_line_search_accepted","NonFinite.secant_breakdown","NonFinite.nan_run_succeeds","NonFinite.deadLoad_accepted","NonFinite.success_with_nan"],"Finding: a residual that is not a number ends the Newton loop (residual > tolerance is false) before the iteration limit, so the load step is accepted, written and the run returns 0 (nan_step_accepted, nan_run_succeeds); a breakdown of the secant line search (s.r unchanged by the full step) makes every unmoved degree of freedom NaN and is accepted the same way (secant_breakdown, deadLoad_accepted). Proved: an accepted residual is not greater than the tolerance in IEEE comparison, and at most the tolerance when both are finite.")
c("C138","proved",["Mpi.exchange_cliques","Mpi.reductionInfoOf_eq","Mpi.set_up_over_wire","Mpi.receive_spec","Mpi.receive_buffer_spec","Mpi.maximum_node_id","Mpi.number_of_nodes"],"Refinement: the gathered/partitioned/remapped/scattered data give generateReductionInfo of the C01 model on every rank. MPI collectives with their standard meaning.")
c("C139","partial",["Mpi.scatter_delivers_objects","Mpi.scatter_overreads","Mpi.scatter_root_empty","Mpi.scatter_ignores_contents","Mpi.scatter_refuted_all","Mpi.scatter_refuted","Mpi.scatter_empty_partial"],"FALSE of the code: scatter passes source.data() of a vector of vectors to MPI_Scatterv (the made-contiguous copy is never filled or used) and the root returns an empty vector. Exact result, refutation for every shape with data, and the trivial case in which it is right. The function has no caller in the repository.")
c("C140","partial",["Mpi.partition_views","Mpi.partition_in_bounds","Mpi.partition_disjoint","Mpi.ofVector_read","Mpi.sub_read","Mpi.copy_from_spec","Mpi.pointers_count","Mpi.pointers_partial","Mpi.pointers_refuted"],"FALSE for the constructor from two pointers (it counts bytes): exact count, iff, refutation. Proved for all other ways to make a view, for partitions and for copy_from. spanarray is not modelled: its constructor does not compile when instantiated.")
c("C141","proved",["ExodusOut.text_results_readable","ExodusOut.text_step_written"],"the header is C90; that sixteen digits do not determine every double is C90 sixteen_digits; the way a number is printed is a parameter")
c("C142","proved",["Solver.dense_allocated","Solver.dense_new_zero","Solver.dense_set_get","Solver.dense_setAll","Solver.dense_setRow","Solver.dense_setColumn","Solver.dense_columns_ignored","Solver.dense_reuse_keeps"],"")
c("C143","partial",["Integrate.progress_lines","Integrate.console_other_ranks","Integrate.console_same_run","Integrate.console_finishes","Integrate.progress_too_early","Integrate.progress_overflow"],"Everything but the last clause proved for up to 214748364 steps; the last clause is false of the code (progress_too_early), as is the absence of overflow (progress_overflow).")
c("C144","proved",["Integrate.explicit_results_independent_of_frequency","Integrate.explicit_outputs_independent_of_frequency","Integrate.explicit_final_velocity","Integrate.quasistatic_results_independent_of_frequency","Integrate.quasistatic_outputs_independent_of_frequency","Integrate.meshPhysics_ignoresFlag"],"Exact arithmetic. Under the explicit scheme an output step applies the kinematic conditions once more; the velocities this changes are set again before they are used.")
c("C145","proved",["Integrate.linear_newton_step","Integrate.linear_newton_step_succeeds","Integrate.linear_step_residual","Integrate.linear_load_step","Integrate.linear_run","Integrate.linear_exact_equilibrium","Integrate.springR_finishes"],"Exact arithmetic. The smallness condition is 441 (hi/lo) cgTol |r|^2 <= tol^2, hi and lo bounding the diagonal; it is needed because the linear solver measures all unknowns and the nonlinear one only the first num_nodes.")
c("C146","partial",["Integrate.equilibrium_unique","Integrate.linear_step_equilibrium_partial","Integrate.linear_step_path_independent_partial","Integrate.linear_run_path_independent_partial","Integrate.seesAll_of_dim_one","Integrate.load_path_independence_refuted"],"Exact arithmetic. Proved when the convergence test sees every unknown (it does in one dimension). False in three dimensions: the test looks at the first num_nodes unknowns only, so a step whose load appears elsewhere is accepted without an iteration (load_path_independence_refuted: same final loads, 1 and 2 load steps, different results).")
c("C147","proved",["Integrate.superposition","Integrate.proportional_response","Integrate.unloaded_stays_at_rest"],"Exact arithmetic; no contact; loads depend on the time only.")
c("C148","partial",["App.libraries_disciplined_partial","App.libraries_always_stopped_refuted","App.tpetra_without_mpi"],"False of the code: a simulation that throws makes Run return without FinalizeSubsystems. Proved: exact characterisation, a history keeps the rules iff no accepted call throws or aborts (calls that use Tpetra in a build with Trilinos and without MPI excluded; for those the program stops a Kokkos it never started). Only the calls made by NimbleSM itself are modelled.")
c("C149","partial",["App.run_again_partial","App.mpi_started","App.run_again_refuted","App.stale_interface"],"False of the code: MPI_Init is called once per accepted call without Tpetra, so a second call starts MPI again after MPI_Finalize; after an exception a stale contact interface stays visible. Proved: in histories without exceptions each simulation sees exactly its own contact interface; the exact number of starts of MPI.")
c("C150","proved",["Contact.rounded_search_complete","Contact.rounded_search_close","Contact.rounded_shallow_found","Contact.rounded_resultant_zero","Contact.rounded_moment_zero","Contact.rounded_force_eq","Contact.rounded_search_same_refuted"],"The rounding is any monotone function; arithmetic elsewhere is exact. rounded_search_same_refuted shows that the last condition is needed.")
c("C151","partial",["Integrate.linear_step_superposition_partial","Integrate.linear_run_superposition_partial","Integrate.linear_force","Integrate.quasistatic_superposition_refuted"],"False of the code in three dimensions, where the convergence test does not see every unknown: quasistatic_superposition_refuted gives two load cases and their sum, all accepted with status 0. Proved for every linear problem with an exact linear solver and a convergence test that sees every unknown.")
c("C152","partial",["Integrate.equilibrium_least_energy","Integrate.linear_step_least_energy_partial","Integrate.linear_step_reciprocity_partial","Integrate.least_energy_refuted","Integrate.reciprocity_refuted"],"False of the code in three dimensions, where the convergence test does not see every unknown (least_energy_refuted, reciprocity_refuted: runs with status 0). Proved for every linear problem with an exact linear solver and a convergence test that sees every unknown.")
c("C153","partial",["Integrate.near_equilibria_close","Integrate.accepted_near_equilibrium_partial","Integrate.accepted_accuracy_partial","Integrate.accepted_superposition_partial","Integrate.accuracy_refuted"],"False of the code in three dimensions (accuracy_refuted), where the convergence test looks at the first num_nodes unknowns only. Proved for every linear problem under a convergence test that bounds every unknown (as in one dimension, seesAllBy_of_dim_one), without assumptions on the linear solver.")
c("C154","proved",["Integrate.settled_step","Integrate.equilibrium_kept","Integrate.stays_at_rest","Integrate.qStart_undeformed"],"Exact arithmetic; assumes sqrt 0 = 0, a nonzero iteration limit and one rank. The tangent and the linear solver are never reached.")
c("C155","proved",["Integrate.explicit_causal","Integrate.explicit_causal_last","Integrate.quasistatic_causal"],"Exact arithmetic. The last step of the shorter run is written whatever the output frequency, and writing applies the kinematic conditions to the velocity once more, so only displacements are compared there.")
c("C156","proved",["Integrate.order_irrelevant","Integrate.kinematic_order","Integrate.initial_order","Integrate.order_relevant"],"Exact arithmetic; the forces are an arbitrary parameter of the run, the same for both orders (prescribed tractions are added up, C93).")
c("C157","partial",["Integrate.quasistatic_later","Integrate.explicit_later_partial","Integrate.explicit_later_refuted"],"Proved for quasistatic runs. False of the code for explicit runs (explicit_later_refuted): the initial and prescribed velocities at the start are evaluated at time 0 instead of the initial time (explicit_time_integrator.cc:146-147, nimble_boundary_condition_manager.h:117); proved for explicit runs whose fields at the start are the same.")
# -- more below --
for e in C:
    if e["property"] in ["C46","C69","C70","C71","C72"]:
        e["note"]=(e["note"]+" By C102 the stock application never reaches this integrator; the property is about the integrator called with a nimble::ModelData.").strip()
    if e["property"] in ["C51","C52","C53","C76","C77","C78","C79","C80"]:
        e["note"]=(e["note"]+" By C101 no command line of the stock application selects UQ; the property is about the UQ classes called directly.").strip()
json.dump({"claims":C},open("/verif/MANIFEST.json","w"),indent=1)
