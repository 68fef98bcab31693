{
 "claims": [
  {
   "property": "C01",
   "status": "proved",
   "theorems": [
    "NimbleSM.Mpi.initialize_succeeds",
    "NimbleSM.Mpi.vector_reduction_sums",
    "NimbleSM.Mpi.vector_reduction_unshared",
    "NimbleSM.Mpi.vector_reduction_completes_poll",
    "NimbleSM.Mpi.vector_reduction_can_finish",
    "NimbleSM.Mpi.field_size_accepted_iff",
    "NimbleSM.Mpi.sendBuffer_wide_refused"
   ],
   "note": "MPI_Comm_split, MPI_Iallreduce, MPI_Test modelled by their MPI contract; values in any commutative monoid (exact arithmetic)."
  },
  {
   "property": "C02",
   "status": "proved",
   "theorems": [
    "NimbleSM.Mpi.clique_numbering_spec"
   ],
   "note": ""
  },
  {
   "property": "C61",
   "status": "proved",
   "theorems": [
    "NimbleSM.Mpi.partition_boundary_spec"
   ],
   "note": ""
  },
  {
   "property": "C03",
   "status": "proved",
   "theorems": [
    "NimbleSM.Mpi.packIDSpace_spec",
    "NimbleSM.Mpi.packIDSpace_overflow"
   ],
   "note": ""
  },
  {
   "property": "C04",
   "status": "proved",
   "theorems": [
    "NimbleSM.Mpi.groupConsecutive_spec",
    "NimbleSM.Mpi.groups_unique"
   ],
   "note": ""
  },
  {
   "property": "C05",
   "status": "proved",
   "theorems": [
    "NimbleSM.Mpi.serialization_round_trip",
    "NimbleSM.Mpi.pack_vector_round_trip",
    "NimbleSM.Mpi.pack_avoid_resize_round_trip",
    "NimbleSM.Mpi.sendpacked_recvpacked"
   ],
   "note": "Pointer types (T*, array<T*>) are not modelled."
  },
  {
   "property": "C06",
   "status": "proved",
   "theorems": [
    "NimbleSM.Mpi.catenateGatherv_spec",
    "NimbleSM.Mpi.catenateGathervFormat_spec"
   ],
   "note": ""
  },
  {
   "property": "C07",
   "status": "partial",
   "theorems": [
    "NimbleSM.Mpi.gather_not_correct",
    "NimbleSM.Mpi.gather_correct_iff_equal_lengths_partial"
   ],
   "note": "The full property is false of the code; refuted by gather_not_correct. Proved: correct iff all ranks contribute equally long vectors."
  },
  {
   "property": "C08",
   "status": "partial",
   "theorems": [
    "NimbleSM.Mpi.sendpackedStatic_overreads",
    "NimbleSM.Mpi.sendpackedStatic_in_bounds_iff_partial",
    "NimbleSM.Mpi.sendpackedStatic_content_partial"
   ],
   "note": "The full property is false of the code; refuted for every object of two bytes or more. Proved: the exact condition under which the call stays in bounds."
  },
  {
   "property": "C16",
   "status": "proved",
   "theorems": [
    "NimbleSM.LU.lu_solve_correct",
    "NimbleSM.LU.lu_solveSystem_correct"
   ],
   "note": "Any linearly ordered field, any n."
  },
  {
   "property": "C17",
   "status": "partial",
   "theorems": [
    "NimbleSM.LU.lu_singular_not_reported",
    "NimbleSM.LU.lu_completes_nonsingular_partial",
    "NimbleSM.LU.lu_zero_row_reported_partial"
   ],
   "note": "The full property is false of the code; refuted by lu_singular_not_reported. Proved: nonsingular matrices are never reported, and a matrix with a zero row is always reported."
  },
  {
   "property": "C54",
   "status": "proved",
   "theorems": [
    "NimbleSM.Tensor.multScalarFull33_spec",
    "NimbleSM.Tensor.sumFull33Full33_spec",
    "NimbleSM.Tensor.sumSym33Full33_spec",
    "NimbleSM.Tensor.multFull33Full33_spec",
    "NimbleSM.Tensor.multSym33Full33_spec",
    "NimbleSM.Tensor.multScalarFull33Full33_spec",
    "NimbleSM.Tensor.multFull33Sym33ReturnT_spec",
    "NimbleSM.Tensor.squareFull33TFull33_spec",
    "NimbleSM.Tensor.squareFull33Full33T_spec",
    "NimbleSM.Tensor.rotateSym33_spec",
    "NimbleSM.Tensor.unrotateSym33_spec",
    "NimbleSM.Tensor.rotate_unrotate",
    "NimbleSM.Tensor.symPart_skewPart_spec",
    "NimbleSM.Tensor.determinantFull33_spec",
    "NimbleSM.Tensor.crossProduct_spec",
    "NimbleSM.Tensor.normSq_spec",
    "NimbleSM.Tensor.zero_setEqual_spec",
    "NimbleSM.Tensor.invertFull33_spec",
    "NimbleSM.Tensor.invertFull33_of_det_pos",
    "NimbleSM.Tensor.invertFull33_accepts_singular",
    "NimbleSM.Tensor.invert3x3_spec",
    "NimbleSM.Tensor.bch_spec",
    "NimbleSM.Tensor.bchSym33Full33_spec"
   ],
   "note": ""
  },
  {
   "property": "C55",
   "status": "proved",
   "theorems": [
    "NimbleSM.Tensor.padeCos_accurate",
    "NimbleSM.Tensor.eigenSym33_pade",
    "NimbleSM.Tensor.polarLeftLogVLame_pade",
    "NimbleSM.Tensor.polarDecomp_pade",
    "NimbleSM.Tensor.eigenSym33_exact_partial",
    "NimbleSM.Tensor.polarDecomp_correct_partial",
    "NimbleSM.Tensor.polarLeftLogVLame_correct_partial"
   ],
   "note": "The _pade theorems are about the code's own rational function, for every symmetric tensor (also nearly isotropic ones). The _partial theorems are the error-free statements for the exact function cos(acos(x)/3) and tensors that are exactly isotropic or above the code's relative isotropy threshold 1e-30. Floating-point rounding is not modelled."
  },
  {
   "property": "C56",
   "status": "partial",
   "theorems": [
    "NimbleSM.Strings.stringsAreEqual_wrong",
    "NimbleSM.Strings.stringsAreEqual_iff_prefix",
    "NimbleSM.Strings.stringsAreEqual_same_length_partial"
   ],
   "note": "The full property is false of the code; refuted by stringsAreEqual_wrong."
  },
  {
   "property": "C23",
   "status": "proved",
   "theorems": [
    "NimbleSM.Hex.shape_values_spec",
    "NimbleSM.Hex.shape_derivatives_spec",
    "NimbleSM.Hex.shape_partition_of_unity",
    "NimbleSM.Hex.shape_derivatives_sum_zero",
    "NimbleSM.Hex.shape_kronecker",
    "NimbleSM.Hex.shape_linear_and_nonneg"
   ],
   "note": "All parametric points; the tables of values and derivatives equal the trilinear functions and their gradients at every integration point."
  },
  {
   "property": "C24",
   "status": "proved",
   "theorems": [
    "NimbleSM.Hex.deformation_gradients_defined",
    "NimbleSM.Hex.deformation_gradient_affine",
    "NimbleSM.Hex.deformation_gradient_superposed"
   ],
   "note": "Every element with positive Jacobians, every affine motion, and every further affine motion superposed on any motion."
  },
  {
   "property": "C25",
   "status": "proved",
   "theorems": [
    "NimbleSM.Hex.nodal_forces_defined",
    "NimbleSM.Hex.nodal_forces_virtual_work",
    "NimbleSM.Hex.nodal_forces_sum_zero",
    "NimbleSM.Hex.nodal_forces_moment_zero"
   ],
   "note": "Every element and stress field; virtual work identity also proved."
  },
  {
   "property": "C27",
   "status": "proved",
   "theorems": [
    "NimbleSM.Hex.tangent_defined",
    "NimbleSM.Hex.tangent_symmetric",
    "NimbleSM.Hex.tangent_row_sum_zero",
    "NimbleSM.Hex.tangent_rigid_motion",
    "NimbleSM.Hex.tangent_force_consistent",
    "NimbleSM.Hex.tangent_energy_nonneg"
   ],
   "note": "Also linearised rotations and positive semidefiniteness."
  },
  {
   "property": "C28",
   "status": "partial",
   "theorems": [
    "NimbleSM.Hex.characteristic_length_correct_partial",
    "NimbleSM.Hex.characteristic_length_translation_partial",
    "NimbleSM.Hex.characteristic_length_translation_refuted",
    "NimbleSM.Hex.characteristic_length_closed_form",
    "NimbleSM.Hex.characteristic_length_ge",
    "NimbleSM.Hex.characteristic_length_le"
   ],
   "note": "FALSE in general (running maxima start at 0): refuted by a concrete element; proved for elements reaching a nonnegative coordinate in each direction; never an underestimate."
  },
  {
   "property": "C29",
   "status": "proved",
   "theorems": [
    "NimbleSM.Hex.volume_spec",
    "NimbleSM.Hex.volume_average_uniform",
    "NimbleSM.Hex.volume_average_between",
    "NimbleSM.Hex.volume_average_weighted"
   ],
   "note": "Every element for which the routine succeeds."
  },
  {
   "property": "C30",
   "status": "partial",
   "theorems": [
    "NimbleSM.Constitutive.elastic_stress_spec",
    "NimbleSM.Constitutive.elastic_stress_reference",
    "NimbleSM.Constitutive.elastic_stress_isotropic",
    "NimbleSM.Constitutive.elastic_stress_linear",
    "NimbleSM.Constitutive.elastic_tangent_spec",
    "NimbleSM.Constitutive.neohookean_stress_free",
    "NimbleSM.Constitutive.neohookean_dilatation",
    "NimbleSM.Constitutive.neohookean_stress_formula_partial",
    "NimbleSM.Constitutive.neohookean_pressure_partial",
    "NimbleSM.Constitutive.neohookean_objective_partial",
    "NimbleSM.Constitutive.element_tangent_symm_psd",
    "NimbleSM.Constitutive.neohookean_stress_pade"
   ],
   "note": "Elastic part and stress-free reference state complete for the code as written; with the code's own rational approximation the neo-Hookean stress is exactly that of a nearby deformation gradient (neohookean_stress_pade). The error-free neo-Hookean formula, pressure and objectivity inherit the hypotheses of the _partial theorems of C55 (exact cos(acos(x)/3) in place of the Pade approximant; tensor not within the 1e-30 isotropy tolerance)."
  },
  {
   "property": "C31",
   "status": "proved",
   "theorems": [
    "NimbleSM.Constitutive.offNominal_spec",
    "NimbleSM.Constitutive.history_spec",
    "NimbleSM.Constitutive.pointLoop_val"
   ],
   "note": "Every sequence of calls, any constitutive law."
  },
  {
   "property": "C32",
   "status": "partial",
   "theorems": [
    "NimbleSM.Constitutive.material_string_parse_partial",
    "NimbleSM.Constitutive.material_created_partial",
    "NimbleSM.Constitutive.unknown_parameter_rejected",
    "NimbleSM.Constitutive.unknown_model_rejected",
    "NimbleSM.Constitutive.missing_parameter_rejected",
    "NimbleSM.Constitutive.non_numeric_value_accepted",
    "NimbleSM.Constitutive.missing_value_overreads",
    "NimbleSM.Parse.tokenize_words",
    "NimbleSM.Parse.stringToDouble_literal"
   ],
   "note": "Two parts are FALSE of the code: non-numeric values are read as 0, a missing value reads past the token vector (both proved)."
  },
  {
   "property": "C33",
   "status": "proved",
   "theorems": [
    "NimbleSM.Fields.removePrefix_addPrefix",
    "NimbleSM.Fields.hasPrefix_addPrefix",
    "NimbleSM.Fields.labelToIpt_addPrefix",
    "NimbleSM.Fields.addPrefix_injective"
   ],
   "note": "Every nonnegative number, not only below 100."
  },
  {
   "property": "C34",
   "status": "partial",
   "theorems": [
    "NimbleSM.Fields.componentLabels_length",
    "NimbleSM.Fields.componentLabels_nodup_partial",
    "NimbleSM.Fields.componentLabel_eq_partial",
    "NimbleSM.Fields.componentLabels_full2_duplicate",
    "NimbleSM.Fields.componentLabel_full2_mismatch",
    "NimbleSM.Fields.componentLabel_generic_mismatch"
   ],
   "note": "FALSE for 2D full tensors and generic lengths (both refuted); proved for the rest."
  },
  {
   "property": "C35",
   "status": "proved",
   "theorems": [
    "NimbleSM.Fields.history_succeeds_iff",
    "NimbleSM.Fields.history_ids",
    "NimbleSM.Fields.history_id_eq_iff",
    "NimbleSM.Fields.history_ids_dense",
    "NimbleSM.Fields.history_stable",
    "NimbleSM.Fields.history_field",
    "NimbleSM.Fields.getFieldId_found",
    "NimbleSM.Fields.getFieldId_unknown",
    "NimbleSM.Fields.getFieldId_undeclared",
    "NimbleSM.Fields.getFieldId_second_spelling"
   ],
   "note": "Every history of declarations."
  },
  {
   "property": "C36",
   "status": "proved",
   "theorems": [
    "NimbleSM.Fields.nodeDataForOutput_values",
    "NimbleSM.Fields.history_wellFormed",
    "NimbleSM.Fields.history_nodeDataForOutput",
    "NimbleSM.Fields.elementDataForOutput_values",
    "NimbleSM.Fields.elementDataForOutput_unknown",
    "NimbleSM.Fields.blockArrayLength_eq"
   ],
   "note": "Under the necessary hypothesis that the component label is unambiguous (nodeDataForOutput_collision shows what happens otherwise)."
  },
  {
   "property": "C37",
   "status": "partial",
   "theorems": [
    "NimbleSM.Fields.initializeElementData_values",
    "NimbleSM.Fields.initial_deformation_and_stress_partial",
    "NimbleSM.Fields.state_variables_not_initialised"
   ],
   "note": "The state variable part is FALSE of the code: refuted for every name and nonzero value. Identity deformation gradient and zero stress proved."
  },
  {
   "property": "C62",
   "status": "proved",
   "theorems": [
    "NimbleSM.Fields.elementLabels_nodup",
    "NimbleSM.Fields.elementLabels_getElem?",
    "NimbleSM.Fields.determineDataOffsets_eq"
   ],
   "note": "Three dimensions."
  },
  {
   "property": "C63",
   "status": "proved",
   "theorems": [
    "NimbleSM.Fields.specifyOutputFields_known",
    "NimbleSM.Fields.specifyOutputFields_sound",
    "NimbleSM.Fields.specifyOutputFields_no_abort",
    "NimbleSM.Fields.specifyOutputFields_node",
    "NimbleSM.Fields.specifyOutputFields_node_component",
    "NimbleSM.Fields.specifyOutputFields_element",
    "NimbleSM.Fields.double_blank_aborts"
   ],
   "note": ""
  },
  {
   "property": "C18",
   "status": "proved",
   "theorems": [
    "NimbleSM.Solver.access_listed",
    "NimbleSM.Solver.access_unlisted",
    "NimbleSM.Solver.access_injective",
    "NimbleSM.Solver.access_row_out_of_range",
    "NimbleSM.Solver.setEntry_spec",
    "NimbleSM.Solver.empty_row_breaks_lookup"
   ],
   "note": "Any previous use of the container; empty_row_breaks_lookup shows the no-empty-row hypothesis is needed."
  },
  {
   "property": "C19",
   "status": "proved",
   "theorems": [
    "NimbleSM.Solver.matVec_spec",
    "NimbleSM.Solver.diagMatVec_spec",
    "NimbleSM.Solver.populatePreconditioner_spec",
    "NimbleSM.Solver.innerProduct_eq",
    "NimbleSM.Solver.allocateDiagonal_spec",
    "NimbleSM.Solver.allocateDiagonal_places"
   ],
   "note": "Serial build (no MPI_Allreduce in InnerProduct)."
  },
  {
   "property": "C20",
   "status": "proved",
   "theorems": [
    "NimbleSM.Solver.modifyTangent_crs",
    "NimbleSM.Solver.modifyTangent_dense",
    "NimbleSM.Solver.modifyRhs_spec",
    "NimbleSM.Solver.constrained_solution",
    "NimbleSM.Solver.modifyTangent_traction_throws"
   ],
   "note": "Both matrix types. Hypothesis: every condition has a known node set; modifyTangent_traction_throws shows it is needed."
  },
  {
   "property": "C21",
   "status": "proved",
   "theorems": [
    "NimbleSM.Solver.nonzeroStructure_defined",
    "NimbleSM.Solver.nonzeroStructure_spec",
    "NimbleSM.Solver.nonzeroStructure_symmetric",
    "NimbleSM.Solver.nonzeroStructure_admissible"
   ],
   "note": ""
  },
  {
   "property": "C22",
   "status": "proved",
   "theorems": [
    "NimbleSM.Solver.cg_spd",
    "NimbleSM.Solver.cg_spd_exact",
    "NimbleSM.Solver.cg_success",
    "NimbleSM.Solver.cg_iterations",
    "NimbleSM.Solver.cg_residual_invariant",
    "NimbleSM.Solver.cg_converged_reported_as_failure"
   ],
   "note": "Exact arithmetic over any linearly ordered field."
  },
  {
   "property": "C64",
   "status": "proved",
   "theorems": [
    "NimbleSM.Solver.assembleTangent_spec",
    "NimbleSM.Solver.assembleTangent_order",
    "NimbleSM.Solver.unattached_node_breaks_assembly"
   ],
   "note": ""
  },
  {
   "property": "C65",
   "status": "partial",
   "theorems": [
    "NimbleSM.Solver.cg_success_partial",
    "NimbleSM.Solver.cg_negative_limit",
    "NimbleSM.Solver.cg_indefinite_false_success",
    "NimbleSM.Solver.cg_singular_divides_by_zero"
   ],
   "note": "FALSE of the code in general (three refutations). Proved: with a non-negative limit and no division by zero, success implies that the preconditioned residual is within the tolerance."
  },
  {
   "property": "C26",
   "status": "proved",
   "theorems": [
    "NimbleSM.Hex.lumped_mass_total",
    "NimbleSM.Hex.lumped_mass_pos",
    "NimbleSM.Hex.lumped_mass_defined",
    "NimbleSM.Assembly.lumped_mass_sum",
    "NimbleSM.Assembly.lumped_mass_field_defined",
    "NimbleSM.Assembly.lumped_mass_conserved",
    "NimbleSM.Assembly.lumped_mass_field_pos"
   ],
   "note": "Element and assembled mesh, starting from the zero array."
  },
  {
   "property": "C40",
   "status": "proved",
   "theorems": [
    "NimbleSM.Integrate.prescribed_displacement_met",
    "NimbleSM.Integrate.step_spec",
    "NimbleSM.Bc.governs_velocity"
   ],
   "note": "Every force law with internal state, any number of steps; time step positive."
  },
  {
   "property": "C41",
   "status": "partial",
   "theorems": [
    "NimbleSM.Integrate.outputs_meet_conditions",
    "NimbleSM.Integrate.prescribed_velocity_displacement",
    "NimbleSM.Bc.governs_velocity",
    "NimbleSM.Bc.free_dof_untouched",
    "NimbleSM.Integrate.free_dof_step",
    "NimbleSM.Bc.initial_velocity_spec",
    "NimbleSM.Integrate.velocity_after_every_step_refuted",
    "NimbleSM.Integrate.initial_output_velocity_refuted"
   ],
   "note": "Two parts are FALSE of the code: after the second half step of a step that is not written the velocity is not the prescribed one, and the initial output evaluates the expression at time 0 instead of the initial time (both refuted). Proved: every later output shows the prescribed velocity, the displacement is the accumulated sum, free degrees of freedom are untouched."
  },
  {
   "property": "C42",
   "status": "proved",
   "theorems": [
    "NimbleSM.Integrate.explicit_times",
    "NimbleSM.Integrate.explicit_rejects",
    "NimbleSM.Integrate.explicit_frequency_zero",
    "NimbleSM.Integrate.explicit_finishes"
   ],
   "note": ""
  },
  {
   "property": "C43",
   "status": "proved",
   "theorems": [
    "NimbleSM.Integrate.momentum_conserved",
    "NimbleSM.Integrate.mesh_momentum_conserved"
   ],
   "note": "Any force law with zero resultant; and the hexahedral mesh model in particular."
  },
  {
   "property": "C44",
   "status": "proved",
   "theorems": [
    "NimbleSM.Integrate.verlet_step",
    "NimbleSM.Integrate.verlet_reversible"
   ],
   "note": ""
  },
  {
   "property": "C45",
   "status": "proved",
   "theorems": [
    "NimbleSM.Assembly.internal_force_defined",
    "NimbleSM.Assembly.internal_force_sum",
    "NimbleSM.Assembly.internal_force_order",
    "NimbleSM.Assembly.internal_force_outside",
    "NimbleSM.Assembly.internal_force_work",
    "NimbleSM.Assembly.internal_force_resultant",
    "NimbleSM.Assembly.internal_force_moment"
   ],
   "note": ""
  },
  {
   "property": "C66",
   "status": "proved",
   "theorems": [
    "NimbleSM.Assembly.parallel_defined",
    "NimbleSM.Assembly.parallel_assembly_eq_serial"
   ],
   "note": "Uses the reduction theorem of C01."
  },
  {
   "property": "C67",
   "status": "partial",
   "theorems": [
    "NimbleSM.Assembly.critical_time_step_spec",
    "NimbleSM.Assembly.critical_time_step_parallel_refuted",
    "NimbleSM.Assembly.lumped_mass_twice"
   ],
   "note": "FALSE over several ranks (no reduction) and for a second call (masses double); both proved. Proved: minimum over all elements of one rank."
  },
  {
   "property": "C68",
   "status": "proved",
   "theorems": [
    "NimbleSM.Integrate.mesh_angular_momentum_conserved",
    "NimbleSM.Integrate.angularMomentum_step",
    "NimbleSM.Assembly.internal_force_moment"
   ],
   "note": ""
  },
  {
   "property": "C46",
   "status": "partial",
   "theorems": [
    "NimbleSM.Integrate.quasistatic_convergence_refuted",
    "NimbleSM.Integrate.load_step_converged_partial",
    "NimbleSM.Integrate.residualNorm_bounds",
    "NimbleSM.Integrate.residualNorm_blind"
   ],
   "note": "FALSE of the code: refuted for every tolerance, limit and residual size. Proved: the first num_nodes unknowns are below a 21st of the tolerance. By C102 the stock application never reaches this integrator; the property is about the integrator called with a nimble::ModelData."
  },
  {
   "property": "C69",
   "status": "proved",
   "theorems": [
    "NimbleSM.Integrate.quasistatic_prescribed_displacement",
    "NimbleSM.Integrate.quasistatic_prescribed_velocity",
    "NimbleSM.Integrate.linearSolve_held",
    "NimbleSM.Solver.cg_decoupled_zero"
   ],
   "note": "By C102 the stock application never reaches this integrator; the property is about the integrator called with a nimble::ModelData."
  },
  {
   "property": "C70",
   "status": "partial",
   "theorems": [
    "NimbleSM.Integrate.residual_vector_spec",
    "NimbleSM.Integrate.id_gap_out_of_bounds"
   ],
   "note": "Proved for ids that are a renumbering of 0..N-1; for every other set of distinct ids the arrays are overrun (proved). By C102 the stock application never reaches this integrator; the property is about the integrator called with a nimble::ModelData."
  },
  {
   "property": "C71",
   "status": "partial",
   "theorems": [
    "NimbleSM.Integrate.quasistatic_times",
    "NimbleSM.Integrate.quasistatic_rejects",
    "NimbleSM.Integrate.load_step_converged_partial",
    "NimbleSM.Integrate.quasistatic_limit_zero",
    "NimbleSM.Integrate.converged_at_limit_fails",
    "NimbleSM.Integrate.negative_limit_succeeds"
   ],
   "note": "Schedule and rejection proved; status 0 implies the tested criterion for non-negative limits; the other parts are FALSE of the code (three refutations). By C102 the stock application never reaches this integrator; the property is about the integrator called with a nimble::ModelData."
  },
  {
   "property": "C72",
   "status": "partial",
   "theorems": [
    "NimbleSM.Integrate.stale_element_data",
    "NimbleSM.Integrate.secant_state_partial"
   ],
   "note": "FALSE of the code: refuted by a run. Proved: the element data are those of the secant step, and differ from the accepted displacement only when the full step is strictly better. By C102 the stock application never reaches this integrator; the property is about the integrator called with a nimble::ModelData."
  },
  {
   "property": "C38",
   "status": "partial",
   "theorems": [
    "NimbleSM.Deck.deck_pairs_partial",
    "NimbleSM.Deck.whitespace_line_out_of_range",
    "NimbleSM.Deck.long_line_loops_forever",
    "NimbleSM.Deck.empty_value_out_of_range",
    "NimbleSM.Deck.tab_stays_in_value",
    "NimbleSM.Deck.no_colon_key_is_value",
    "NimbleSM.Deck.carriage_return_stays"
   ],
   "note": "FALSE of the code as stated: six refutations. Proved: a deck of empty lines, column-0 comments and key : value lines of at most 999 characters yields exactly its pairs in order, for every handler, and the loop ends."
  },
  {
   "property": "C39",
   "status": "partial",
   "theorems": [
    "NimbleSM.FileName.rank_name_form_partial",
    "NimbleSM.FileName.rank_names_sorted_partial",
    "NimbleSM.FileName.thread_names_distinct",
    "NimbleSM.FileName.blank_in_name_all_ranks_collide",
    "NimbleSM.FileName.suffix_inside_path_cuts"
   ],
   "note": "FALSE of the code for names with white space and for .g/.e inside a path (refuted); proved for all other names and all rank counts, and for the thread-safe variant without restriction on characters."
  },
  {
   "property": "C73",
   "status": "proved",
   "theorems": [
    "NimbleSM.Deck.deck_settings",
    "NimbleSM.Deck.deck_accepted_iff",
    "NimbleSM.Deck.deck_order_irrelevant",
    "NimbleSM.Deck.scheme_checked",
    "NimbleSM.Deck.atof_literal",
    "NimbleSM.Deck.atoi_decimal"
   ],
   "note": "Complete for the build without BVH and UQ; numbers are exact decimals."
  },
  {
   "property": "C74",
   "status": "partial",
   "theorems": [
    "NimbleSM.Deck.deck_materials_partial",
    "NimbleSM.Deck.blockProperties_blockValue",
    "NimbleSM.Deck.same_number_overwrites",
    "NimbleSM.Deck.unnumbered_block_is_zero"
   ],
   "note": "FALSE of the code when names end in equal numbers or in no number (refuted); proved for names ending in different numbers."
  },
  {
   "property": "C48",
   "status": "proved",
   "theorems": [
    "NimbleSM.Expr.optimize_eval",
    "NimbleSM.Expr.optimizeB_eval",
    "NimbleSM.Expr.functor_eval"
   ],
   "note": "Any arithmetic (no laws on the operations are used), so also for floating point."
  },
  {
   "property": "C50",
   "status": "partial",
   "theorems": [
    "NimbleSM.Expr.parse_inside_partial",
    "NimbleSM.Expr.parse_terminates_partial",
    "NimbleSM.Expr.empty_condition_outside",
    "NimbleSM.Expr.leading_equals_outside",
    "NimbleSM.Expr.not_outside",
    "NimbleSM.Expr.not_recurses_forever"
   ],
   "note": "FALSE of the code in general (four refutations). Proved: texts without '?' are never read outside, and texts without '!' are parsed with recursion depth at most their length."
  },
  {
   "property": "C75",
   "status": "proved",
   "theorems": [
    "NimbleSM.Expr.assign_throw_unchanged",
    "NimbleSM.Expr.reachable_ofText",
    "NimbleSM.Expr.copy_eval",
    "NimbleSM.Expr.copyAssign_eval",
    "NimbleSM.Expr.copyAssign_default_throws",
    "NimbleSM.Expr.assignAll_last",
    "NimbleSM.Expr.parse_case",
    "NimbleSM.Expr.default_eval_throws"
   ],
   "note": "Exceptions of std::stod for out-of-range literals are not modelled."
  },
  {
   "property": "C47",
   "status": "proved",
   "theorems": [
    "NimbleSM.Expr.parse_print",
    "NimbleSM.Expr.functor_print",
    "NimbleSM.Expr.huge_exponent"
   ],
   "note": "For every arithmetic in which whole numbers read as int and as double agree and == is symmetric; operands are variables or parenthesised."
  },
  {
   "property": "C49",
   "status": "partial",
   "theorems": [
    "NimbleSM.Expr.conventional_partial",
    "NimbleSM.Expr.functor_conventional_partial",
    "NimbleSM.Expr.sign_before_power",
    "NimbleSM.Expr.exponent_sign_taken",
    "NimbleSM.Expr.exponent_sign_refused",
    "NimbleSM.Expr.sign_after_product",
    "NimbleSM.Expr.e_before_minus",
    "NimbleSM.Expr.blanks_in_parentheses",
    "NimbleSM.Expr.power_in_condition",
    "NimbleSM.Expr.remainder_of_sum",
    "NimbleSM.Expr.huge_exponent"
   ],
   "note": "FALSE of the code in general (refutations by kernel evaluation). Proved: every text of the grammar Conv (conventional precedence and grouping, blanks around operators, any letter case, with one marked side condition per refutation) evaluates to its conventional value, in exact arithmetic."
  },
  {
   "property": "C51",
   "status": "proved",
   "theorems": [
    "NimbleSM.Uq.closure_spec",
    "NimbleSM.Uq.closure_exact_unchanged",
    "NimbleSM.Uq.closure_forgets",
    "NimbleSM.Uq.closure_reproduces",
    "NimbleSM.Uq.closure_selects"
   ],
   "note": "By C101 no command line of the stock application selects UQ; the property is about the UQ classes called directly."
  },
  {
   "property": "C52",
   "status": "proved",
   "theorems": [
    "NimbleSM.Uq.scaled_parameters_distinct",
    "NimbleSM.Uq.scaled_parameters",
    "NimbleSM.Uq.initialize_spec",
    "NimbleSM.Uq.repeated_parameter"
   ],
   "note": "For distinct names as stated; scaled_parameters says what happens for repeated ones (repeated_parameter is an instance). By C101 no command line of the stock application selects UQ; the property is about the UQ classes called directly."
  },
  {
   "property": "C53",
   "status": "partial",
   "theorems": [
    "NimbleSM.Uq.reduction_partial",
    "NimbleSM.Uq.reduction_in_range_iff",
    "NimbleSM.Uq.reduction_out_of_range"
   ],
   "note": "FALSE of the code without approximate samples (proved); proved with at least one. By C101 no command line of the stock application selects UQ; the property is about the UQ classes called directly."
  },
  {
   "property": "C76",
   "status": "partial",
   "theorems": [
    "NimbleSM.Uq.sample_file_read",
    "NimbleSM.Uq.sample_file_shape",
    "NimbleSM.Uq.wrong_exact_refused",
    "NimbleSM.Uq.missing_exact_repeated",
    "NimbleSM.Uq.missing_line_repeated",
    "NimbleSM.Uq.missing_line_refused",
    "NimbleSM.Uq.missing_file_undefined",
    "NimbleSM.Uq.stoi_range"
   ],
   "note": "Reading of well-formed files and shape of every accepted file proved; that a file with missing lines is refused is FALSE of the code (missing_exact_repeated). By C101 no command line of the stock application selects UQ; the property is about the UQ classes called directly."
  },
  {
   "property": "C77",
   "status": "partial",
   "theorems": [
    "NimbleSM.Uq.sample_standalone_partial",
    "NimbleSM.Uq.selecting_sample_follows",
    "NimbleSM.Uq.sample_force",
    "NimbleSM.Uq.sample_ignores_prescribed_displacement",
    "NimbleSM.Uq.sample_ignores_contact"
   ],
   "note": "FALSE of the code with prescribed displacements or contact (both refuted). Proved for all other boundary conditions, against the run without contact, one rank, any number of steps. By C101 no command line of the stock application selects UQ; the property is about the UQ classes called directly."
  },
  {
   "property": "C78",
   "status": "partial",
   "theorems": [
    "NimbleSM.Uq.parameters_exist_iff",
    "NimbleSM.Uq.shared_material_has_no_parameters",
    "NimbleSM.Uq.material_without_line_has_no_parameters"
   ],
   "note": "FALSE of the code in general (two refutations); the exact condition is proved. By C101 no command line of the stock application selects UQ; the property is about the UQ classes called directly."
  },
  {
   "property": "C79",
   "status": "partial",
   "theorems": [
    "NimbleSM.Uq.column_order_partial",
    "NimbleSM.Uq.column_order",
    "NimbleSM.Uq.columns_not_in_deck_order",
    "NimbleSM.Uq.ten_before_two"
   ],
   "note": "FALSE of the code (refuted); proved when the lines are in alphabetical order of the material keys; the actual order is proved for every deck. By C101 no command line of the stock application selects UQ; the property is about the UQ classes called directly."
  },
  {
   "property": "C80",
   "status": "proved",
   "theorems": [
    "NimbleSM.Uq.nominal_undisturbed",
    "NimbleSM.Uq.ustep_nominal"
   ],
   "note": "One rank; runs that complete. By C101 no command line of the stock application selects UQ; the property is about the UQ classes called directly."
  },
  {
   "property": "C09",
   "status": "proved",
   "theorems": [
    "NimbleSM.Contact.mesh_contact_balance",
    "NimbleSM.Contact.enforce_resultant",
    "NimbleSM.Contact.enforce_untouched",
    "NimbleSM.Contact.enforce_order_irrelevant",
    "NimbleSM.Contact.enforce_single",
    "NimbleSM.Contact.contactForce_exists",
    "NimbleSM.Contact.contactForce_deterministic",
    "NimbleSM.Contact.contact_resultant_zero",
    "NimbleSM.Contact.contact_untouched"
   ],
   "note": "enforce_*: any list of interactions; contact_*: the whole ComputeSerialContactForce of the ArborX serial manager, any order of the atomic additions."
  },
  {
   "property": "C10",
   "status": "proved",
   "theorems": [
    "NimbleSM.Contact.decomposition_exists",
    "NimbleSM.Contact.projection_spec",
    "NimbleSM.Contact.inside_iff",
    "NimbleSM.Contact.inside_outputs",
    "NimbleSM.Contact.degenerate_never_inside"
   ],
   "note": ""
  },
  {
   "property": "C13",
   "status": "proved",
   "theorems": [
    "NimbleSM.Contact.serialize_in_bounds",
    "NimbleSM.Contact.serialize_roundtrip",
    "NimbleSM.Contact.received_fields",
    "NimbleSM.Contact.received_loses"
   ],
   "note": "received_loses lists what is not transmitted (forces, local id, contact status)."
  },
  {
   "property": "C14",
   "status": "proved",
   "theorems": [
    "NimbleSM.Contact.triangle_box_contains",
    "NimbleSM.Contact.triangle_box_tight",
    "NimbleSM.Contact.node_box",
    "NimbleSM.Contact.near_boxes_intersect",
    "NimbleSM.Contact.shallow_penetration_found",
    "NimbleSM.Contact.deep_penetration_missed"
   ],
   "note": "deep_penetration_missed shows the limit: a node the projection would accept can be outside the inflated box."
  },
  {
   "property": "C60",
   "status": "proved",
   "theorems": [
    "NimbleSM.Contact.apply_displacements_spec",
    "NimbleSM.Contact.get_forces_spec"
   ],
   "note": ""
  },
  {
   "property": "C81",
   "status": "proved",
   "theorems": [
    "NimbleSM.Contact.contact_moment_zero",
    "NimbleSM.Contact.mesh_contact_balance"
   ],
   "note": ""
  },
  {
   "property": "C82",
   "status": "proved",
   "theorems": [
    "NimbleSM.Contact.contact_conservative",
    "NimbleSM.Contact.signedDistance_eq",
    "NimbleSM.Contact.signedDistance_deriv"
   ],
   "note": ""
  },
  {
   "property": "C83",
   "status": "proved",
   "theorems": [
    "NimbleSM.Contact.contact_pushes_out"
   ],
   "note": ""
  },
  {
   "property": "C11",
   "status": "proved",
   "theorems": [
    "NimbleSM.Contact.skinBlocks_spec",
    "NimbleSM.Contact.mem_skin",
    "NimbleSM.Contact.mem_allFaces",
    "NimbleSM.Contact.skinBlocks_order",
    "NimbleSM.Contact.skin_of_repeated_block"
   ],
   "note": "skin_of_repeated_block: a block listed twice has no skin or aborts."
  },
  {
   "property": "C12",
   "status": "proved",
   "theorems": [
    "NimbleSM.Contact.entityId_injective",
    "NimbleSM.Contact.entityId_decode",
    "NimbleSM.Contact.entityId_ne_node",
    "NimbleSM.Contact.triangle_ids_distinct",
    "NimbleSM.Contact.entityId_negative",
    "NimbleSM.Contact.entityId_collision"
   ],
   "note": "For element id + largest node id below 2^26; beyond, ids become negative and collide (proved)."
  },
  {
   "property": "C59",
   "status": "proved",
   "theorems": [
    "NimbleSM.Contact.submodel_spec",
    "NimbleSM.Contact.created_wellFormed",
    "NimbleSM.Contact.contactModel_exists"
   ],
   "note": ""
  },
  {
   "property": "C84",
   "status": "proved",
   "theorems": [
    "NimbleSM.Contact.parallel_skin",
    "NimbleSM.Contact.parallel_skin_eq_serial",
    "NimbleSM.Contact.removeInternal_spec",
    "NimbleSM.Contact.parallel_abort_missed"
   ],
   "note": "parallel_abort_missed: without the hypothesis the ranks do not notice a face of three elements."
  },
  {
   "property": "C85",
   "status": "proved",
   "theorems": [
    "NimbleSM.Contact.contact_normal_outward"
   ],
   "note": ""
  },
  {
   "property": "C86",
   "status": "partial",
   "theorems": [
    "NimbleSM.Contact.contact_node_unique_partial",
    "NimbleSM.Contact.contact_node_owner",
    "NimbleSM.Contact.contact_node_missing"
   ],
   "note": "FALSE of the code (contact_node_missing). Proved: at most one rank; exactly the smallest rank holding the node if the node is on its own secondary skin."
  },
  {
   "property": "C15",
   "status": "partial",
   "theorems": [
    "NimbleSM.Contact.contact_command",
    "NimbleSM.Contact.contact_command_read",
    "NimbleSM.Contact.contact_command_refused_partial",
    "NimbleSM.Contact.contact_command_without_number"
   ],
   "note": "Exact acceptance criterion and result of the contact command, for every text. FALSE as stated in one part, refuted by contact_command_without_number: a command without a penalty number is accepted and the caller's penalty stays uninitialised."
  },
  {
   "property": "C58",
   "status": "partial",
   "theorems": [
    "NimbleSM.Genesis.block_lookup_partial",
    "NimbleSM.Genesis.get_block_id",
    "NimbleSM.Genesis.max_node_global_id",
    "NimbleSM.Genesis.unknown_block_ignored",
    "NimbleSM.Genesis.duplicate_name_dropped",
    "NimbleSM.Genesis.element_type_of_data",
    "NimbleSM.Genesis.of_data_lookup"
   ],
   "note": "Exact result of the look-up for every mesh and list of names; FALSE as stated for unknown names (ignored) and blocks sharing a name (only the first is found), both refuted."
  },
  {
   "property": "C87",
   "status": "proved",
   "theorems": [
    "NimbleSM.Genesis.bounding_box",
    "NimbleSM.Genesis.bounding_box_empty"
   ],
   "note": "Exact arithmetic. bounding_box_empty: what is returned for a mesh without nodes."
  },
  {
   "property": "C88",
   "status": "partial",
   "theorems": [
    "NimbleSM.Genesis.mesh_read",
    "NimbleSM.Genesis.sets_read_partial",
    "NimbleSM.Genesis.node_set_without_factors"
   ],
   "note": "FALSE for node sets stored without distribution factors (node_set_without_factors); proved for the rest."
  },
  {
   "property": "C89",
   "status": "partial",
   "theorems": [
    "NimbleSM.Genesis.output_mesh_partial",
    "NimbleSM.Genesis.node_set_names_lost"
   ],
   "note": "FALSE for the names of node sets (node_set_names_lost); proved for the rest."
  },
  {
   "property": "C90",
   "status": "partial",
   "theorems": [
    "NimbleSM.Genesis.text_mesh_partial",
    "NimbleSM.Genesis.text_mesh_no_output",
    "NimbleSM.Genesis.sixteen_digits"
   ],
   "note": "Round trip proved with coordinates as printed; two refutations."
  },
  {
   "property": "C57",
   "status": "proved",
   "theorems": [
    "NimbleSM.Views.vector_view_bijection",
    "NimbleSM.Views.scalar_view_bijection",
    "NimbleSM.Views.kokkos_view_bijection",
    "NimbleSM.Views.view_zero",
    "NimbleSM.Views.scalar_view_zero",
    "NimbleSM.Views.view_copy",
    "NimbleSM.Views.view_axpy",
    "NimbleSM.Views.view_assignTo"
   ],
   "note": ""
  },
  {
   "property": "C91",
   "status": "partial",
   "theorems": [
    "NimbleSM.Views.kokkos_update_partial",
    "NimbleSM.Views.kokkos_view_bijection",
    "NimbleSM.Views.left_layout_first_component_only"
   ],
   "note": "FALSE for the column layout (refuted); proved for storage by rows."
  },
  {
   "property": "C92",
   "status": "partial",
   "theorems": [
    "NimbleSM.Bc.bc_line_number",
    "NimbleSM.Bc.bc_line_expression",
    "NimbleSM.Bc.bc_line_accepted",
    "NimbleSM.Bc.bc_list_partial",
    "NimbleSM.Bc.bc_line_without_number",
    "NimbleSM.Bc.bc_line_bad_number",
    "NimbleSM.Bc.unknown_set_ignored"
   ],
   "note": "Proved for lines with a number or expression; acceptance implies kind, set, coordinate and legal quotes. FALSE for missing and unreadable numbers and unknown sets (three refutations)."
  },
  {
   "property": "C93",
   "status": "partial",
   "theorems": [
    "NimbleSM.Bc.traction_has_no_effect"
   ],
   "note": "FALSE of the code: refuted for every explicit run. Nothing positive holds."
  },
  {
   "property": "C94",
   "status": "proved",
   "theorems": [
    "NimbleSM.Contact.parallel_deterministic",
    "NimbleSM.Contact.parallelForce_exists",
    "NimbleSM.Contact.parallel_resultant_zero",
    "NimbleSM.Contact.parallel_moment_zero",
    "NimbleSM.Contact.parallel_eq_serial",
    "NimbleSM.Contact.reduced_force_is_serial",
    "NimbleSM.Contact.bvh_eq_arborx",
    "NimbleSM.Contact.bvhForce_exists"
   ],
   "note": "Exact real arithmetic. The tree libraries (ArborX DistributedTree, bvh) are specified, not modelled: every pair with intersecting boxes is found, callbacks run at least once per pair, outputs are delivered once per pair. The distribution hypothesis (each contact entity on one rank, with the characteristic length of the serial one) is explicit."
  },
  {
   "property": "C95",
   "status": "partial",
   "theorems": [
    "NimbleSM.Kokkos.concurrent_internal_force_eq_serial",
    "NimbleSM.Kokkos.concurrent_internal_force_deterministic",
    "NimbleSM.Kokkos.concurrent_internal_force_exists",
    "NimbleSM.Kokkos.concurrent_distributed_force_eq_serial",
    "NimbleSM.Kokkos.concurrent_lumped_mass_eq_serial",
    "NimbleSM.Kokkos.concurrent_lumped_mass_exists",
    "NimbleSM.Kokkos.inverted_element_mass_refuted",
    "NimbleSM.Kokkos.inverted_element_serial_aborts",
    "NimbleSM.Kokkos.plain_add_loses_update",
    "NimbleSM.Kokkos.run_atomicAdd"
   ],
   "note": "Full agreement with the serial assembly for all interleavings (each memory access is one indivisible step; exact arithmetic). FALSE for the last sentence: the Kokkos build does not stop on an inverted element (inverted_element_mass_refuted: negative nodal masses), while the serial build aborts. plain_add_loses_update shows why the atomic views are needed."
  },
  {
   "property": "C96",
   "status": "proved",
   "theorems": [
    "NimbleSM.Kokkos.Registry.registry_refines",
    "NimbleSM.Kokkos.Registry.registry_accepts",
    "NimbleSM.Kokkos.Registry.field_id_stable",
    "NimbleSM.Kokkos.Registry.field_id_injective",
    "NimbleSM.Kokkos.Registry.allocate_returns_id",
    "NimbleSM.Kokkos.Registry.unknown_label_throws",
    "NimbleSM.Kokkos.Registry.reallocation_replaces",
    "NimbleSM.Kokkos.Registry.scalar_vector_ipt_never_readable"
   ],
   "note": "Refinement of the registry to a table from (place, label) to fields, for all histories. Limits shown: allocating a label again replaces its storage (reallocation_replaces); scalar and vector integration-point data can be allocated but no getter ever returns them (scalar_vector_ipt_never_readable)."
  },
  {
   "property": "C97",
   "status": "partial",
   "theorems": [
    "NimbleSM.Kokkos.Registry.initializeBlocks_returns",
    "NimbleSM.Kokkos.Registry.initial_state",
    "NimbleSM.Kokkos.Registry.updateStates_advances_partial",
    "NimbleSM.Kokkos.Registry.updateStates_with_state_variables_fails",
    "NimbleSM.Kokkos.Registry.unrotated_stress_is_stress"
   ],
   "note": "Full for materials without state variables. FALSE when a material has state variables: UpdateStates then never returns (updateStates_with_state_variables_fails: symmetric-tensor, scalar and vector states are fetched as full tensors). stress and unrotated_stress are the same field."
  },
  {
   "property": "C98",
   "status": "partial",
   "theorems": [
    "NimbleSM.Kokkos.Output.element_results_spec",
    "NimbleSM.Kokkos.Output.node_results_spec",
    "NimbleSM.Kokkos.Output.short_ipt_request_fails",
    "NimbleSM.Kokkos.Output.nonexistent_point_refuted",
    "NimbleSM.Kokkos.Output.point_nine_outside",
    "NimbleSM.Kokkos.Output.volume_not_allocated_fails"
   ],
   "note": "Full for the volume, plain labels and ipt01..ipt09 up to the number of integration points. FALSE for points that do not exist (nonexistent_point_refuted: ipt00 and ipt10 give columns of zeros, ipt11 gives point 1, because the index is read one character late; point_nine_outside: ipt09 reads outside the view). A request that starts with ipt and is shorter than six characters ends the run."
  },
  {
   "property": "C99",
   "status": "partial",
   "theorems": [
    "NimbleSM.Kokkos.Coherence.mirrored_run",
    "NimbleSM.Kokkos.Coherence.shared_kernel_coordinates",
    "NimbleSM.Kokkos.Coherence.shared_memory_masses",
    "NimbleSM.Kokkos.Coherence.separate_memory_masses_vanish"
   ],
   "note": "Full for displacement, velocity, forces, element output, both memory arrangements (mirrored_run), and for coordinates when memory is shared (Serial, OpenMP, unified memory). FALSE for the coordinates when memory is separate: they are written on the host only and never copied, so all masses are zero (separate_memory_masses_vanish)."
  },
  {
   "property": "C100",
   "status": "partial",
   "theorems": [
    "NimbleSM.App.exit_zero_iff",
    "NimbleSM.App.finalized_iff",
    "NimbleSM.App.failures_reported",
    "NimbleSM.App.help_only_prints_refuted",
    "NimbleSM.App.help_alone_reads_empty_deck"
   ],
   "note": "Full for the status without a help request. FALSE for help requests (the simulation runs as well; without an input file the deck with the empty name is read). After an exception MPI and Kokkos are not shut down (failures_reported, finalized_iff); an exception from the deck reader is not caught. CLI11 is represented by stated rules."
  },
  {
   "property": "C101",
   "status": "partial",
   "theorems": [
    "NimbleSM.App.cli_accepted",
    "NimbleSM.App.cli_unsupported",
    "NimbleSM.App.cli_no_input",
    "NimbleSM.App.uq_never_selected",
    "NimbleSM.App.use_uq_turns_on_vt",
    "NimbleSM.App.use_uq_selects_uq_refuted"
   ],
   "note": "Full for Tpetra, the input file and rejections. FALSE for --use_uq, which sets the VT variable (nimble_cli.cc:101): UQ is never selected, VT is turned on even where it was not built. CLI11 is represented by stated rules."
  },
  {
   "property": "C102",
   "status": "partial",
   "theorems": [
    "NimbleSM.App.quasistatic_never_completes",
    "NimbleSM.App.quasistatic_completes_refuted"
   ],
   "note": "FALSE: no start of the application completes a quasistatic deck, in any build; it is refused (status other than 0). The property proved is that it is always refused."
  },
  {
   "property": "C103",
   "status": "partial",
   "theorems": [
    "NimbleSM.App.contact_backend_ignored",
    "NimbleSM.App.contact_kind_iff",
    "NimbleSM.App.base_contact_force_zero",
    "NimbleSM.App.base_contact_force_defined",
    "NimbleSM.App.base_contact_force_fresh"
   ],
   "note": "Full for the freshness of the forces (base manager). FALSE for the choice: the backend key is ignored, and in a build without ArborX (and BVH with VT) the contact force is zero for every mesh and displacement."
  },
  {
   "property": "C104",
   "status": "partial",
   "theorems": [
    "NimbleSM.Tensor.log_rotation_correct_partial",
    "NimbleSM.Tensor.log_rotation_angle_partial",
    "NimbleSM.Tensor.log_rotation_half_turn_unwritten",
    "NimbleSM.Tensor.log_rotation_refuted",
    "NimbleSM.Tensor.log_rotation_pi_spec",
    "NimbleSM.Tensor.log_rotation_pi_refuted"
   ],
   "note": "Proved (with the matrix exponential of Mathlib) for every rotation whose cosine is at least 10 eps above -1. FALSE for half turns: Log_Rotation leaves the output unwritten; Log_Rotation_Pi returns a logarithm exactly if the y or z component of the axis is not tiny, and ends the program for the x axis. Exact arithmetic."
  },
  {
   "property": "C105",
   "status": "proved",
   "theorems": [
    "NimbleSM.Fields.derived_output",
    "NimbleSM.Fields.derived_requests",
    "NimbleSM.Fields.derived_between",
    "NimbleSM.Fields.duplicate_volume_column"
   ],
   "note": "Serial model data, eight-point hexahedron, exact arithmetic. If volume is requested several times, the last request is the one filled (duplicate_volume_column); Exodus output writes by name, so the file still holds the volume."
  },
  {
   "property": "C106",
   "status": "partial",
   "theorems": [
    "NimbleSM.ExodusOut.results_readable",
    "NimbleSM.ExodusOut.writeStep_defined",
    "NimbleSM.ExodusOut.long_name_overflows"
   ],
   "note": "Proved for all names of at most 32 characters (build with Exodus; the library is represented by the arrays it stores). FALSE for longer names: they overflow the fixed buffers of InitializeDatabase (long_name_overflows)."
  },
  {
   "property": "C107",
   "status": "proved",
   "theorems": [
    "NimbleSM.Contact.closest_point_nearest",
    "NimbleSM.Contact.closest_point_in_triangle",
    "NimbleSM.Contact.closest_point_exact",
    "NimbleSM.Contact.closest_point_face",
    "NimbleSM.Contact.closest_point_edge",
    "NimbleSM.Contact.closest_point_reports_face",
    "NimbleSM.Contact.simple_closest_point_iff",
    "NimbleSM.Contact.closest_points_batch",
    "NimbleSM.Contact.simple_closest_point"
   ],
   "note": "Exact arithmetic over any ordered field (the simple variant over the reals)."
  },
  {
   "property": "C108",
   "status": "partial",
   "theorems": [
    "NimbleSM.Contact.visMesh_spec",
    "NimbleSM.Contact.visualization_shows_contact",
    "NimbleSM.Contact.visualization_node_ids_partial",
    "NimbleSM.Contact.visualization_elem_ids",
    "NimbleSM.Contact.visualization_ids_refuted"
   ],
   "note": "Proved in full except for the node ids, which are distinct if the largest entity id M satisfies 4M+11 < 2^31. FALSE for larger ids: the int expression 3*id+M+9 overflows (modelled as wrap-around) and the ids collide (visualization_ids_refuted). Exact arithmetic."
  },
  {
   "property": "C109",
   "status": "partial",
   "theorems": [
    "NimbleSM.Contact.contact_report_partial",
    "NimbleSM.Contact.contact_report_empty_without_visualization",
    "NimbleSM.Contact.contact_report_refuted",
    "NimbleSM.Contact.contact_report_late",
    "NimbleSM.Contact.contact_report_late_refuted"
   ],
   "note": "FALSE: the count is read from the host copy of the faces, which only a visualization step refreshes. Proved: exactly what the report holds (contact_report_partial); it is empty without visualization, and one step late with visualization at every step."
  },
  {
   "property": "C110",
   "status": "proved",
   "theorems": [
    "NimbleSM.Integrate.explicit_energy_balance",
    "NimbleSM.Integrate.explicit_stable",
    "NimbleSM.Integrate.explicit_velocity_bound",
    "NimbleSM.Integrate.explicit_unstable"
   ],
   "note": "Exact arithmetic, forces linear in the displacements with a symmetric stiffness (no contact, no external force), no constraints."
  },
  {
   "property": "C111",
   "status": "partial",
   "theorems": [
    "NimbleSM.Integrate.guided_run_stable_partial",
    "NimbleSM.Integrate.guided_run_aborts",
    "NimbleSM.Integrate.reported_step",
    "NimbleSM.Integrate.reported_step_unstable",
    "NimbleSM.Integrate.reported_step_refuted"
   ],
   "note": "FALSE: the reported step uses the sound speed sqrt(bulk/density) and ignores the shear modulus. For one cubic element guided along an axis the exact limit is proved with the full element, material, assembly and integrator model: stable below h/sqrt((bulk+4/3 shear)/density), abort above it for every nonzero initial velocity; the reported step is above it for every material."
  },
  {
   "property": "C112",
   "status": "proved",
   "theorems": [
    "NimbleSM.Hex.area_eq_faces",
    "NimbleSM.Hex.uniform_stress_force",
    "NimbleSM.Assembly.areas_cancel",
    "NimbleSM.Assembly.patch_test",
    "NimbleSM.Assembly.patch_test_parallelepipeds",
    "NimbleSM.Assembly.patch_test_bound",
    "NimbleSM.Assembly.patch_test_code",
    "NimbleSM.Hex.gaussVal_rounded"
   ],
   "note": "Exact arithmetic.  patch_test: with the Gauss point at 1/sqrt 3 the force is zero.  For the literal 0.577350269189626 of the code: zero on meshes of parallelepipeds, and below 7e-14 R^2 smax per element corner on all meshes."
  },
  {
   "property": "C113",
   "status": "proved",
   "theorems": [
    "NimbleSM.Assembly.volume_interior",
    "NimbleSM.Assembly.mass_interior",
    "NimbleSM.Assembly.mass_interior_bound",
    "NimbleSM.Assembly.mass_interior_code"
   ],
   "note": "Exact arithmetic.  mass_interior: with the Gauss point at 1/sqrt 3.  mass_interior_code: with the literal of the code the change is below 4e-13 rho R^3 per element."
  },
  {
   "property": "C114",
   "status": "proved",
   "theorems": [
    "NimbleSM.Integrate.axes_independent",
    "NimbleSM.Assembly.internal_force_transformed",
    "NimbleSM.Assembly.lumped_mass_transformed"
   ],
   "note": "Exact arithmetic, serial, no contact; neo-Hookean blocks: with the exact cosine of the eigenvalue solver and at deformation gradients whose principal stretches it resolves (as C30)."
  },
  {
   "property": "C115",
   "status": "proved",
   "theorems": [
    "NimbleSM.Integrate.numbering_independent"
   ],
   "note": "Exact arithmetic, serial, no contact; neo-Hookean blocks as in C114."
  },
  {
   "property": "C116",
   "status": "proved",
   "theorems": [
    "NimbleSM.Integrate.units_independent"
   ],
   "note": "Exact arithmetic, serial, no contact; neo-Hookean blocks as in C114. Conditions given by formulas are covered by the hypothesis that the formula gives the converted value."
  },
  {
   "property": "C117",
   "status": "proved",
   "theorems": [
    "NimbleSM.Integrate.galilean_invariant"
   ],
   "note": "Exact arithmetic, serial, no contact; neo-Hookean blocks as in C114."
  },
  {
   "property": "C118",
   "status": "proved",
   "theorems": [
    "NimbleSM.Integrate.uniform_motion",
    "NimbleSM.Integrate.translated_force"
   ],
   "note": "Exact arithmetic, serial, no contact."
  },
  {
   "property": "C119",
   "status": "partial",
   "theorems": [
    "NimbleSM.Assembly.internal_force_objective_partial",
    "NimbleSM.Assembly.elastic_turned_force"
   ],
   "note": "Proved for neo-Hookean blocks (domain as in C30). FALSE for the elastic material, which uses the small strain of the full deformation gradient: every mesh of elastic blocks with positive bulk moduli has internal forces after any rotation other than the identity (elastic_turned_force)."
  },
  {
   "property": "C120",
   "status": "partial",
   "theorems": [
    "NimbleSM.Assembly.internal_power",
    "NimbleSM.Assembly.internal_work_partial",
    "NimbleSM.Assembly.neohookean_derives",
    "NimbleSM.Integrate.elastic_no_energy"
   ],
   "note": "Proved for neo-Hookean blocks (domain as in C30; strain energy given explicitly). FALSE for the elastic material, whose small-strain stress acts on the current configuration: for 3 bulk != 8 shear the forces of a single cube derive from no energy (elastic_no_energy)."
  },
  {
   "property": "C121",
   "status": "proved",
   "theorems": [
    "NimbleSM.Assembly.internal_force_relisted",
    "NimbleSM.Assembly.lumped_mass_relisted",
    "NimbleSM.Assembly.critical_time_step_relisted",
    "NimbleSM.Assembly.volume_average_relisted",
    "NimbleSM.Assembly.tangent_relisted",
    "NimbleSM.Assembly.mirrored_refused",
    "NimbleSM.Integrate.run_relisted",
    "NimbleSM.Hex.symmetry_exists"
   ],
   "note": "Over exact real arithmetic (sums are reordered)."
  },
  {
   "property": "C122",
   "status": "proved",
   "theorems": [
    "NimbleSM.Integrate.image_of_motion",
    "NimbleSM.Integrate.image_of_constrained_motion",
    "NimbleSM.Integrate.symmetric_motion",
    "NimbleSM.Integrate.symmetric_constrained_motion",
    "NimbleSM.Integrate.symmetry_plane",
    "NimbleSM.Assembly.internal_force_mapped",
    "NimbleSM.Assembly.lumped_mass_mapped"
   ],
   "note": "Exact arithmetic, serial, no contact; at most one condition per degree of freedom; neo-Hookean blocks as in C114."
  },
  {
   "property": "C123",
   "status": "proved",
   "theorems": [
    "NimbleSM.Integrate.kinetic_energy_balance",
    "NimbleSM.Integrate.kinetic_energy_at_least",
    "NimbleSM.Integrate.mesh_energy_balance",
    "NimbleSM.Integrate.mesh_acceleration",
    "NimbleSM.Integrate.mesh_forces_exist"
   ],
   "note": "Exact arithmetic. Velocities of constrained degrees of freedom are excluded: between output steps they hold the half-step value."
  },
  {
   "property": "C124",
   "status": "partial",
   "theorems": [
    "NimbleSM.Contact.interactions_add_up_partial",
    "NimbleSM.Contact.interactions_resultant_partial",
    "NimbleSM.Contact.interactions_serial_partial",
    "NimbleSM.Contact.interactions_race",
    "NimbleSM.Contact.interactions_add_up_refuted",
    "NimbleSM.Contact.shares_area",
    "NimbleSM.Contact.force_acts_at_closest_iff"
   ],
   "note": "False as stated: interactions_race gives, for any two nodes on one face, a schedule with resultant F1 - F0. What holds is proved for all schedules that keep calls about one node or face apart."
  },
  {
   "property": "C125",
   "status": "partial",
   "theorems": [
    "NimbleSM.Tpetra.tpetra_reduction_partial",
    "NimbleSM.Tpetra.tpetra_reduction_refuted",
    "NimbleSM.Tpetra.selectedRank_least",
    "NimbleSM.Tpetra.transfer"
   ],
   "note": "False as stated: data with other numbers of components are treated as scalars (tpetra_reduction_refuted). What holds is proved for all histories. The semantics of Tpetra import, export and createOneToOne are assumptions written out in Mpi/Tpetra.lean."
  },
  {
   "property": "C126",
   "status": "partial",
   "theorems": [
    "NimbleSM.Tpetra.tangent_pattern_partial",
    "NimbleSM.Tpetra.num_nonzeros_iff",
    "NimbleSM.Tpetra.num_nonzeros_refuted",
    "NimbleSM.Tpetra.replace_value_aborts"
   ],
   "note": "False as stated: no value can ever be entered, and shared pairs are counted repeatedly. The pattern is proved right. Tpetra graph and matrix semantics are assumptions written out in Mpi/TpetraMatrix.lean."
  },
  {
   "property": "C127",
   "status": "partial",
   "theorems": [
    "NimbleSM.Contact.bounding_box_exact_partial",
    "NimbleSM.Contact.longest_edge_exact",
    "NimbleSM.Contact.average_length_refuted"
   ],
   "note": "False as stated for ranks without contact nodes (average_length_refuted). Exact arithmetic."
  },
  {
   "property": "C128",
   "status": "proved",
   "theorems": [
    "NimbleSM.Integrate.half_model",
    "NimbleSM.Integrate.half_model_runs",
    "NimbleSM.Integrate.half_model_case"
   ],
   "note": "Elastic and neo-Hookean hexahedra without contact; exact arithmetic."
  },
  {
   "property": "C129",
   "status": "proved",
   "theorems": [
    "NimbleSM.Hex.oriented_tangent_defined",
    "NimbleSM.Hex.zero_strain_rigid",
    "NimbleSM.Constitutive.energy_zero_iff_rigid",
    "NimbleSM.Constitutive.hourglass_has_energy",
    "NimbleSM.Constitutive.one_point_rule_blind"
   ],
   "note": "Exact arithmetic."
  },
  {
   "property": "C130",
   "status": "proved",
   "theorems": [
    "NimbleSM.Solver.supported_spd",
    "NimbleSM.Solver.diagonalEntry_pos",
    "NimbleSM.Solver.linear_step_succeeds",
    "NimbleSM.Solver.linear_step_tolerance",
    "NimbleSM.Solver.supported_body_solved",
    "NimbleSM.Solver.stack_solved"
   ],
   "note": "Serial linear system (CRSMatrixContainer), exact arithmetic; the code's iteration limit is 1000, so the guarantee covers up to 999 unknowns."
  },
  {
   "property": "C131",
   "status": "partial",
   "theorems": [
    "NimbleSM.Newton.element_force_deriv",
    "NimbleSM.Newton.tangent_is_derivative_partial",
    "NimbleSM.Newton.tangent_not_derivative",
    "NimbleSM.Newton.cube_tangent"
   ],
   "note": "proved for elastic blocks in the undeformed state, for every mesh, node numbering and direction; the property is false in stressed states (the geometric part of the stiffness is missing): proved for a stretched elastic cube with any positive moduli"
  },
  {
   "property": "C132",
   "status": "proved",
   "theorems": [
    "NimbleSM.Integrate.explicit_converges",
    "NimbleSM.Integrate.elastic_forces_near",
    "NimbleSM.Integrate.explicit_run_converges",
    "NimbleSM.Integrate.explicit_result_converges",
    "NimbleSM.Integrate.guided_cube_converges",
    "NimbleSM.Integrate.loaded_start"
   ],
   "note": "exact arithmetic, elastic blocks, one rank, no contact; the existence of the smooth motion is the hypothesis (met by the guided cube, whose motion is given in closed form); loaded_start is the exact error under a constant force present at the start"
  },
  {
   "property": "C133",
   "status": "partial",
   "theorems": [
    "NimbleSM.Timing.regions_reported_partial",
    "NimbleSM.Timing.flat_regions_reported_partial",
    "NimbleSM.Timing.nested_region_wrong",
    "NimbleSM.Timing.reentered_region_wrong",
    "NimbleSM.Timing.elapsed_accumulates",
    "NimbleSM.Timing.timer_elapsed"
   ],
   "note": "false of the code for nested regions with Kokkos and for re-entered regions without; proved for all other histories"
  },
  {
   "property": "C134",
   "status": "partial",
   "theorems": [
    "NimbleSM.Timing.timing_data",
    "NimbleSM.Timing.reduction_time_zero"
   ],
   "note": "proved for the total, the sums and the bound; the vector reduction column is always 0 (proved); build without Kokkos, exact arithmetic"
  },
  {
   "property": "C135",
   "status": "partial",
   "theorems": [
    "NimbleSM.Timing.microsecond_sorted",
    "NimbleSM.Timing.nanosecond_sorted",
    "NimbleSM.Timing.timing_files_distinct",
    "NimbleSM.Timing.millisecond_goes_back"
   ],
   "note": "proved for microsecond and nanosecond stamps, given that strftime's dates sort; false for millisecond stamps (proved)"
  },
  {
   "property": "C136",
   "status": "partial",
   "theorems": [
    "NimbleSM.Kokkos.work_arrays_distinct_when_resize_allocates",
    "NimbleSM.Kokkos.work_arrays_distinct_iff",
    "NimbleSM.Kokkos.work_arrays_independent_when_resize_allocates",
    "NimbleSM.Kokkos.work_arrays_independent_partial",
    "NimbleSM.Kokkos.shared_pair_force",
    "NimbleSM.Kokkos.work_arrays_shared_refuted"
   ],
   "note": "Finding: InitializeGatheredVectors fills its vectors with copies of one handle of extent 1 and relies on Kokkos::resize to make a new allocation for each block. With a resize that leaves views of the right extent alone (recent releases) all blocks of exactly one element share their work arrays, and the stress divergence of each is evaluated on the element of the last of them (shared_pair_force; refutation on a two-cube mesh). Proved: allocations distinct iff resize always allocates or at most one block has one element, and then every execution gives the serial forces (this also discharges the separate-arrays assumption of C95)."
  },
  {
   "property": "C137",
   "status": "partial",
   "theorems": [
    "NimbleSM.NonFinite.norm_nan",
    "NimbleSM.NonFinite.norm_ignores",
    "NimbleSM.NonFinite.accepted_not_greater_partial",
    "NimbleSM.NonFinite.nan_step_accepted",
    "NimbleSM.NonFinite.nan_line_search_accepted",
    "NimbleSM.NonFinite.secant_breakdown",
    "NimbleSM.NonFinite.nan_run_succeeds",
    "NimbleSM.NonFinite.deadLoad_accepted",
    "NimbleSM.NonFinite.success_with_nan"
   ],
   "note": "Finding: a residual that is not a number ends the Newton loop (residual > tolerance is false) before the iteration limit, so the load step is accepted, written and the run returns 0 (nan_step_accepted, nan_run_succeeds); a breakdown of the secant line search (s.r unchanged by the full step) makes every unmoved degree of freedom NaN and is accepted the same way (secant_breakdown, deadLoad_accepted). Proved: an accepted residual is not greater than the tolerance in IEEE comparison, and at most the tolerance when both are finite."
  },
  {
   "property": "C138",
   "status": "proved",
   "theorems": [
    "NimbleSM.Mpi.exchange_cliques",
    "NimbleSM.Mpi.reductionInfoOf_eq",
    "NimbleSM.Mpi.set_up_over_wire",
    "NimbleSM.Mpi.receive_spec",
    "NimbleSM.Mpi.receive_buffer_spec",
    "NimbleSM.Mpi.maximum_node_id",
    "NimbleSM.Mpi.number_of_nodes"
   ],
   "note": "Refinement: the gathered/partitioned/remapped/scattered data give generateReductionInfo of the C01 model on every rank. MPI collectives with their standard meaning."
  },
  {
   "property": "C139",
   "status": "partial",
   "theorems": [
    "NimbleSM.Mpi.scatter_delivers_objects",
    "NimbleSM.Mpi.scatter_overreads",
    "NimbleSM.Mpi.scatter_root_empty",
    "NimbleSM.Mpi.scatter_ignores_contents",
    "NimbleSM.Mpi.scatter_refuted_all",
    "NimbleSM.Mpi.scatter_refuted",
    "NimbleSM.Mpi.scatter_empty_partial"
   ],
   "note": "FALSE of the code: scatter passes source.data() of a vector of vectors to MPI_Scatterv (the made-contiguous copy is never filled or used) and the root returns an empty vector. Exact result, refutation for every shape with data, and the trivial case in which it is right. The function has no caller in the repository."
  },
  {
   "property": "C140",
   "status": "partial",
   "theorems": [
    "NimbleSM.Mpi.partition_views",
    "NimbleSM.Mpi.partition_in_bounds",
    "NimbleSM.Mpi.partition_disjoint",
    "NimbleSM.Mpi.ofVector_read",
    "NimbleSM.Mpi.sub_read",
    "NimbleSM.Mpi.copy_from_spec",
    "NimbleSM.Mpi.pointers_count",
    "NimbleSM.Mpi.pointers_partial",
    "NimbleSM.Mpi.pointers_refuted"
   ],
   "note": "FALSE for the constructor from two pointers (it counts bytes): exact count, iff, refutation. Proved for all other ways to make a view, for partitions and for copy_from. spanarray is not modelled: its constructor does not compile when instantiated."
  },
  {
   "property": "C141",
   "status": "proved",
   "theorems": [
    "NimbleSM.ExodusOut.text_results_readable",
    "NimbleSM.ExodusOut.text_step_written"
   ],
   "note": "the header is C90; that sixteen digits do not determine every double is C90 sixteen_digits; the way a number is printed is a parameter"
  },
  {
   "property": "C142",
   "status": "proved",
   "theorems": [
    "NimbleSM.Solver.dense_allocated",
    "NimbleSM.Solver.dense_new_zero",
    "NimbleSM.Solver.dense_set_get",
    "NimbleSM.Solver.dense_setAll",
    "NimbleSM.Solver.dense_setRow",
    "NimbleSM.Solver.dense_setColumn",
    "NimbleSM.Solver.dense_columns_ignored",
    "NimbleSM.Solver.dense_reuse_keeps"
   ],
   "note": ""
  },
  {
   "property": "C143",
   "status": "partial",
   "theorems": [
    "NimbleSM.Integrate.progress_lines",
    "NimbleSM.Integrate.console_other_ranks",
    "NimbleSM.Integrate.console_same_run",
    "NimbleSM.Integrate.console_finishes",
    "NimbleSM.Integrate.progress_too_early",
    "NimbleSM.Integrate.progress_overflow"
   ],
   "note": "Everything but the last clause proved for up to 214748364 steps; the last clause is false of the code (progress_too_early), as is the absence of overflow (progress_overflow)."
  },
  {
   "property": "C144",
   "status": "proved",
   "theorems": [
    "NimbleSM.Integrate.explicit_results_independent_of_frequency",
    "NimbleSM.Integrate.explicit_outputs_independent_of_frequency",
    "NimbleSM.Integrate.explicit_final_velocity",
    "NimbleSM.Integrate.quasistatic_results_independent_of_frequency",
    "NimbleSM.Integrate.quasistatic_outputs_independent_of_frequency",
    "NimbleSM.Integrate.meshPhysics_ignoresFlag"
   ],
   "note": "Exact arithmetic. Under the explicit scheme an output step applies the kinematic conditions once more; the velocities this changes are set again before they are used."
  },
  {
   "property": "C145",
   "status": "proved",
   "theorems": [
    "NimbleSM.Integrate.linear_newton_step",
    "NimbleSM.Integrate.linear_newton_step_succeeds",
    "NimbleSM.Integrate.linear_step_residual",
    "NimbleSM.Integrate.linear_load_step",
    "NimbleSM.Integrate.linear_run",
    "NimbleSM.Integrate.linear_exact_equilibrium",
    "NimbleSM.Integrate.springR_finishes"
   ],
   "note": "Exact arithmetic. The smallness condition is 441 (hi/lo) cgTol |r|^2 <= tol^2, hi and lo bounding the diagonal; it is needed because the linear solver measures all unknowns and the nonlinear one only the first num_nodes."
  },
  {
   "property": "C146",
   "status": "partial",
   "theorems": [
    "NimbleSM.Integrate.equilibrium_unique",
    "NimbleSM.Integrate.linear_step_equilibrium_partial",
    "NimbleSM.Integrate.linear_step_path_independent_partial",
    "NimbleSM.Integrate.linear_run_path_independent_partial",
    "NimbleSM.Integrate.seesAll_of_dim_one",
    "NimbleSM.Integrate.load_path_independence_refuted"
   ],
   "note": "Exact arithmetic. Proved when the convergence test sees every unknown (it does in one dimension). False in three dimensions: the test looks at the first num_nodes unknowns only, so a step whose load appears elsewhere is accepted without an iteration (load_path_independence_refuted: same final loads, 1 and 2 load steps, different results)."
  },
  {
   "property": "C147",
   "status": "proved",
   "theorems": [
    "NimbleSM.Integrate.superposition",
    "NimbleSM.Integrate.proportional_response",
    "NimbleSM.Integrate.unloaded_stays_at_rest"
   ],
   "note": "Exact arithmetic; no contact; loads depend on the time only."
  },
  {
   "property": "C148",
   "status": "partial",
   "theorems": [
    "NimbleSM.App.libraries_disciplined_partial",
    "NimbleSM.App.libraries_always_stopped_refuted",
    "NimbleSM.App.tpetra_without_mpi"
   ],
   "note": "False of the code: a simulation that throws makes Run return without FinalizeSubsystems. Proved: exact characterisation, a history keeps the rules iff no accepted call throws or aborts (calls that use Tpetra in a build with Trilinos and without MPI excluded; for those the program stops a Kokkos it never started). Only the calls made by NimbleSM itself are modelled."
  },
  {
   "property": "C149",
   "status": "partial",
   "theorems": [
    "NimbleSM.App.run_again_partial",
    "NimbleSM.App.mpi_started",
    "NimbleSM.App.run_again_refuted",
    "NimbleSM.App.stale_interface"
   ],
   "note": "False of the code: MPI_Init is called once per accepted call without Tpetra, so a second call starts MPI again after MPI_Finalize; after an exception a stale contact interface stays visible. Proved: in histories without exceptions each simulation sees exactly its own contact interface; the exact number of starts of MPI."
  },
  {
   "property": "C150",
   "status": "proved",
   "theorems": [
    "NimbleSM.Contact.rounded_search_complete",
    "NimbleSM.Contact.rounded_search_close",
    "NimbleSM.Contact.rounded_shallow_found",
    "NimbleSM.Contact.rounded_resultant_zero",
    "NimbleSM.Contact.rounded_moment_zero",
    "NimbleSM.Contact.rounded_force_eq",
    "NimbleSM.Contact.rounded_search_same_refuted"
   ],
   "note": "The rounding is any monotone function; arithmetic elsewhere is exact. rounded_search_same_refuted shows that the last condition is needed."
  },
  {
   "property": "C151",
   "status": "partial",
   "theorems": [
    "NimbleSM.Integrate.linear_step_superposition_partial",
    "NimbleSM.Integrate.linear_run_superposition_partial",
    "NimbleSM.Integrate.linear_force",
    "NimbleSM.Integrate.quasistatic_superposition_refuted"
   ],
   "note": "False of the code in three dimensions, where the convergence test does not see every unknown: quasistatic_superposition_refuted gives two load cases and their sum, all accepted with status 0. Proved for every linear problem with an exact linear solver and a convergence test that sees every unknown."
  },
  {
   "property": "C152",
   "status": "partial",
   "theorems": [
    "NimbleSM.Integrate.equilibrium_least_energy",
    "NimbleSM.Integrate.linear_step_least_energy_partial",
    "NimbleSM.Integrate.linear_step_reciprocity_partial",
    "NimbleSM.Integrate.least_energy_refuted",
    "NimbleSM.Integrate.reciprocity_refuted"
   ],
   "note": "False of the code in three dimensions, where the convergence test does not see every unknown (least_energy_refuted, reciprocity_refuted: runs with status 0). Proved for every linear problem with an exact linear solver and a convergence test that sees every unknown."
  },
  {
   "property": "C153",
   "status": "partial",
   "theorems": [
    "NimbleSM.Integrate.near_equilibria_close",
    "NimbleSM.Integrate.accepted_near_equilibrium_partial",
    "NimbleSM.Integrate.accepted_accuracy_partial",
    "NimbleSM.Integrate.accepted_superposition_partial",
    "NimbleSM.Integrate.accuracy_refuted"
   ],
   "note": "False of the code in three dimensions (accuracy_refuted), where the convergence test looks at the first num_nodes unknowns only. Proved for every linear problem under a convergence test that bounds every unknown (as in one dimension, seesAllBy_of_dim_one), without assumptions on the linear solver."
  },
  {
   "property": "C154",
   "status": "proved",
   "theorems": [
    "NimbleSM.Integrate.settled_step",
    "NimbleSM.Integrate.equilibrium_kept",
    "NimbleSM.Integrate.stays_at_rest",
    "NimbleSM.Integrate.qStart_undeformed"
   ],
   "note": "Exact arithmetic; assumes sqrt 0 = 0, a nonzero iteration limit and one rank. The tangent and the linear solver are never reached."
  },
  {
   "property": "C155",
   "status": "proved",
   "theorems": [
    "NimbleSM.Integrate.explicit_causal",
    "NimbleSM.Integrate.explicit_causal_last",
    "NimbleSM.Integrate.quasistatic_causal"
   ],
   "note": "Exact arithmetic. The last step of the shorter run is written whatever the output frequency, and writing applies the kinematic conditions to the velocity once more, so only displacements are compared there."
  },
  {
   "property": "C156",
   "status": "proved",
   "theorems": [
    "NimbleSM.Integrate.order_irrelevant",
    "NimbleSM.Integrate.kinematic_order",
    "NimbleSM.Integrate.initial_order",
    "NimbleSM.Integrate.order_relevant"
   ],
   "note": "Exact arithmetic; the forces are an arbitrary parameter of the run, the same for both orders (prescribed tractions are added up, C93)."
  },
  {
   "property": "C157",
   "status": "partial",
   "theorems": [
    "NimbleSM.Integrate.quasistatic_later",
    "NimbleSM.Integrate.explicit_later_partial",
    "NimbleSM.Integrate.explicit_later_refuted"
   ],
   "note": "Proved for quasistatic runs. False of the code for explicit runs (explicit_later_refuted): the initial and prescribed velocities at the start are evaluated at time 0 instead of the initial time (explicit_time_integrator.cc:146-147, nimble_boundary_condition_manager.h:117); proved for explicit runs whose fields at the start are the same."
  }
 ]
}