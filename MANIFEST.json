{"claims": [
 {"property": "C01", "status": "proved", "theorems": ["Verif.generatePartitions_mem", "Verif.generatePartitions_sorted", "Verif.generatePartitions_nodup"], "note": "degrees are natural numbers; negative degrees are not modelled"},
 {"property": "C02", "status": "proved", "theorems": ["Verif.MonoMgr.standardMonom_spec", "Verif.MonoMgr.invMonoms_existsUnique", "Verif.MonoMgr.invMonoms_nodup", "Verif.MonoMgr.dictMonoms_iff", "Verif.MonoMgr.index_spec", "Verif.MonoMgr.index_eq_iff", "Verif.MonoMgr.register_history"], "note": "for every finite permutation group given by its element list"},
 {"property": "C03", "status": "partial", "theorems": ["Verif.MonoMgr.invarraylize_arraylize", "Verif.MonoMgr.arraylize_invarraylize_partial", "Verif.MonoMgr.arraylize_invarraylize_zero_false", "Verif.MonoMgr.arraylize_drops_lower_terms"], "note": "polynomial->vector->polynomial holds in full; vector->polynomial->vector holds when the top-degree part is nonzero and is proved false for a zero vector"},
 {"property": "C04", "status": "proved", "theorems": ["Verif.MonoMgr.arraylize_expand_cyc"], "note": ""},
 {"property": "C05", "status": "proved", "theorems": ["Verif.congruence_sound", "Verif.congruence_sum_of_squares"], "note": "exact arithmetic over any ordered field; numpy float instantiation not modelled"},
 {"property": "C06", "status": "proved", "theorems": ["Verif.congruence_none_iff", "Verif.congruence_error_iff"], "note": "empty matrix raises IndexError, proved to be the only error"},
 {"property": "C07", "status": "proved", "theorems": ["Verif.quadraticWeighting_sound", "Verif.quadraticWeighting_none_iff", "Verif.quadraticWeightingSum_eq"], "note": "over any ordered field; radsimp is value-preserving and modelled as identity"},
 {"property": "C08", "status": "proved", "theorems": ["Verif.Coeff.isCyclic_iff", "Verif.Coeff.isCyclic_size_mismatch", "Verif.Coeff.isCyclicDefault_iff", "Verif.Coeff.isSymmetricDefault_iff", "Verif.Coeff.isSymmetricDefault_zero_raises"], "note": "generators assumed to be permutations of range(nvars); the empty dictionary raises IndexError in is_symmetric"},
 {"property": "C09", "status": "proved", "theorems": ["Verif.Coeff.cancelAbc_spec", "Verif.Coeff.cancelK_spec"], "note": "no stored zero coefficients, as in the statement"},
 {"property": "C10", "status": "proved", "theorems": ["Verif.Coeff.add_spec", "Verif.Coeff.sub_spec"], "note": ""},
 {"property": "C100", "status": "proved", "theorems": ["Verif.SymSOS.eval_invE", "Verif.SymSOS.eval_wE", "Verif.SymSOS.eval_toEx", "Verif.SymSOS.symLoop_sound", "Verif.SymSOS.symmetricSOS_positive", "Verif.SymSOS.symmetricSOS_real", "Verif.SymSOS.symmetricSOS_nonneg", "Verif.SymSOS.symmetricSOS_all", "Verif.SymSOS.monoEx_ok", "Verif.SymSOS.exDriver_schur", "Verif.SymSOS.exDriver_rejects", "Verif.SymSOS.exDriver_real"], "note": "Contracts: SymPy's divmod, the p,q,r form of the input, and the bivariate prover with the replacement in its answers (BExOk; met by the example solver). Constraints on single variables are the normalised ones of C34. The expression is taken without SymPy's reordering of factors. The zero polynomial is not modelled."},
 {"property": "C101", "status": "proved", "theorems": ["Verif.IdentifySym.homSwap_perm", "Verif.IdentifySym.homRot_perm", "Verif.IdentifySym.alternatingGens_perm", "Verif.IdentifySym.perm_inv", "Verif.IdentifySym.evalDict_of_inv", "Verif.IdentifySym.identify_sound", "Verif.IdentifySym.identify_symmetric", "Verif.IdentifySym.identify_cyclic", "Verif.IdentifySym.identify_odd", "Verif.IdentifySym.identify_alternating", "Verif.IdentifySym.identify_hom", "Verif.IdentifySym.identify_homRot"], "note": "SymPy's generators of the symmetric, cyclic and alternating groups are part of the model. Coefficients have decidable equality."},
 {"property": "C102", "status": "proved", "theorems": ["Verif.BorderRoots.eval_edge", "Verif.BorderRoots.eval_axis", "Verif.BorderRoots.mem_crit", "Verif.BorderRoots.localMin_crit", "Verif.BorderRoots.border_sound", "Verif.BorderRoots.border_complete", "Verif.BorderRoots.border_zero", "Verif.BorderRoots.border_cyclic", "Verif.BorderRoots.axis_spec", "Verif.BorderRoots.exNr_ok", "Verif.BorderRoots.exZero_found", "Verif.BorderRoots.vertex_lost"], "note": "Contract NrOk: nroots returns exactly the nonnegative real roots (exact numbers, no exception). The dense list of the cyclic case is taken for homogeneous polynomials."},
 {"property": "C103", "status": "proved", "theorems": ["Verif.KKT.eval_stationarity", "Verif.KKT.solves_iff", "Verif.KKT.hasGrad", "Verif.KKT.kkt_necessary", "Verif.KKT.kkt_sufficient", "Verif.KKT.ex_solves", "Verif.KKT.ex_min", "Verif.KKT.ex_necessary", "Verif.KKT.kkt_degenerate"], "note": "For polynomial f and constraints (the use with as_poly). The order in which SymPy lists symbols that occur only in constraints is not modelled."},
 {"property": "C104", "status": "proved", "theorems": ["Verif.IPM.trace_AVX", "Verif.IPM.next_feasible", "Verif.IPM.next_value", "Verif.IPM.diff_eq", "Verif.IPM.quad_le", "Verif.IPM.next_posDef", "Verif.IPM.diff_nonneg", "Verif.IPM.slack_zero", "Verif.IPM.top_zero", "Verif.IPM.ipm_sound", "Verif.IPM.ipm_last", "Verif.IPM.ipm_terminates", "Verif.IPM.const_fails", "Verif.IPM.feasible_residual", "Verif.IPM.feasible_iff", "Verif.IPM.feasible_answers", "Verif.IPM.dual_sound", "Verif.IPM.exLs_ok", "Verif.IPM.exNext", "Verif.IPM.exRun", "Verif.IPM.exInfeasible", "Verif.IPM.exConst", "Verif.IPM.next_blocks", "Verif.IPM.posDef_blocks", "Verif.IPM.blocks_sound", "Verif.IPM.blocks_eq", "Verif.IPM.exBLs_ok", "Verif.IPM.exB_feasible", "Verif.IPM.exB_run"], "note": "Exact real arithmetic; rounding is not modelled. The linear solver is a parameter that solves its system. The theorems about Prob are for one block; blocks_sound carries them over to several blocks and any callback, blocks_eq shows that both loops agree. sdp_ipm_feasible is modelled with one block of size n + 1. Matrices with entries outside the given blocks are not modelled. Nothing is claimed about the returned multipliers beyond ipm_last. Findings: a constant objective always ends in an exception (const_fails); the phase-one search returns for infeasible programs, too (feasible_answers)."},
 {"property": "C11", "status": "proved", "theorems": ["Verif.Dispatch.sumOfSquares_some", "Verif.Dispatch.sumOfSquares_none", "Verif.Dispatch.sumOfSquares_error", "Verif.Dispatch.sumOfSquares_first"], "note": "Method loop of sum_of_squares with the solvers as parameters."},
 {"property": "C12", "status": "proved", "theorems": ["Verif.Dispatch.sumOfSquaresMultiple_rows", "Verif.Dispatch.readItems_spec", "Verif.Dispatch.sumOfSquaresMultiple_total", "Verif.Dispatch.sumOfSquaresMultiple_strict_raises"], "note": "Row loop of sum_of_squares_multiple; the reader and the solver are parameters."},
 {"property": "C13", "status": "partial", "theorems": ["Verif.Extract.extract_sound", "Verif.Extract.finish_sound"], "note": "Soundness under stated side conditions; fractional even-numerator powers inside cyclic sums (accepted by the code although not real on negative bases) are excluded by fracSafe."},
 {"property": "C14", "status": "partial", "theorems": ["Verif.StructDispatch.monomialShortcut_unsound", "Verif.StructDispatch.monomialShortcut_unsound_constrained", "Verif.StructDispatch.monomialShortcut_partial", "Verif.StructDispatch.monomialShortcut_neg", "Verif.StructDispatch.pickSolver_spec"], "note": "The shortcut as coded is unsound (two negation theorems); sound for the inputs named in monomialShortcut_partial."},
 {"property": "C15", "status": "partial", "theorems": ["Verif.Quaternary.cubicPartial_sound_partial", "Verif.Quaternary.cubicPartial_none", "Verif.Quaternary.cubicPartial_wrong", "Verif.Quaternary.cubicPartial_quad_wrong"], "note": "the code ignores some coefficients, so the full claim is false: two witnesses are proved wrong; the partial theorem adds that the ignored coefficients vanish"},
 {"property": "C16", "status": "partial", "theorems": ["Verif.Sparse.sosQuadratic_sound", "Verif.Sparse.sosQuadratic_none_iff", "Verif.Sparse.sosQuadratic_cubic_wrong"], "note": "Sound and complete up to total degree two; for cubics, which the function does not reject, the claim is false (witness)."},
 {"property": "C17", "status": "proved", "theorems": ["Verif.Sparse.sosLinear_sound", "Verif.Sparse.sosLinear_none_iff", "Verif.Sparse.sosLinear_deg_gt"], "note": ""},
 {"property": "C18", "status": "proved", "theorems": ["Verif.Univariate.mergeAll_sound", "Verif.Univariate.mergeOne_sound", "Verif.Univariate.reduceSos_sound", "Verif.Univariate.reduceSos_error", "Verif.Univariate.mergeAll_total", "Verif.Univariate.proveUnivariate_error"], "note": "merge loop, _cross_mul and _reduce_sos through the modelled congruence"},
 {"property": "C19", "status": "proved", "theorems": ["Verif.Univariate.proveInterval_sound", "Verif.Univariate.proveInterval_total"], "note": "all four kinds of interval; prove_univariate is a parameter with its contract as hypothesis; the zero polynomial on a bounded interval raises in the model (nan in the code)"},
 {"property": "C20", "status": "partial", "theorems": ["Verif.Univariate.determine_gram", "Verif.Univariate.determine_error", "Verif.Univariate.proveUnivariate_wrong"], "note": "holds when the degree fits the matrix; false for the pair of matrices when the residual loses degree (witness x^5+x^3-3x^2+3x+1)"},
 {"property": "C21", "status": "proved", "theorems": ["Verif.Bivariate.halfspace_contains", "Verif.Bivariate.halfspace_exact", "Verif.Bivariate.halfspace_flat", "Verif.Bivariate.halfspace_interior"], "note": "All histories; containment needs no hypothesis, exactness needs nonzero normals. The exception in the property (antiparallel stored normals) is shown to be real by an example."},
 {"property": "C22", "status": "proved", "theorems": ["Verif.LinSolve.rowReduce_spec", "Verif.LinSolve.solveUndetermined_ok", "Verif.LinSolve.solveUndetermined_error_iff"], "note": "for every matrix over a field; independence of the space columns is proved too"},
 {"property": "C23", "status": "proved", "theorems": ["Verif.LinSolve.solveNullspace_spec"], "note": "SymPy nullspace is modelled by its reduced-row-echelon read-out"},
 {"property": "C24", "status": "partial", "theorems": ["Verif.LinSolve.columnSep_sound_partial", "Verif.LinSolve.columnSep_complete_partial", "Verif.LinSolve.columnSep_zero_row", "Verif.LinSolve.columnSep_group_wrong", "Verif.LinSolve.columnSep_zero_column"], "note": "sound and complete when the groups lie in one row with equal coefficients; the code accepts an inconsistent zero row, averages groups spread over rows, and drops zero columns"},
 {"property": "C25", "status": "proved", "theorems": ["Verif.Sdp.rowMask_ok", "Verif.Sdp.rowMask_error", "Verif.Sdp.maskZero_feasible", "Verif.Sdp.maskZero_error", "Verif.Sdp.zeroDiagLoop_spec", "Verif.Sdp.zeroDiagLoop_total", "Verif.Sdp.propagateNullMask_ok"], "note": "Dual problems with symmetric matrices: arbitrary masks, masks of identically zero diagonals, and the whole recursive chain, with termination. A call that raises means there was no feasible point."},
 {"property": "C26", "status": "partial", "theorems": ["Verif.Sdp.psd_iff_conj", "Verif.Sdp.matrixTransform_ok", "Verif.Sdp.constrainNullspace_ok", "Verif.Sdp.constrainNullspace_error_iff", "Verif.Sdp.factors_iff", "Verif.Sdp.constrainSubspace_ok_partial", "Verif.Sdp.constrainSubspace_zero_wrong", "Verif.Sdp.constrainSubspace_full_raises", "Verif.Sdp.propagateNull_ok_partial", "Verif.Sdp.propagateNull_wrong"], "note": "Null-space constraints are exact (and refuse exactly when unsatisfiable). Column-space constraints are exact except for two proved defects: all-zero column spaces return the unconstrained problem, full-rank ones raise. Passing a further null space to the child uses UᵀN, proved right only for orthonormal U and proved wrong in general."},
 {"property": "C27", "status": "proved", "theorems": ["Verif.Sdp.mat_subst", "Verif.Sdp.vectorTransform_feasible", "Verif.Sdp.solveEqs_ok", "Verif.Sdp.solveEqs_error", "Verif.Sdp.constrainSymmetry_spec", "Verif.Sdp.constrainEqual_spec", "Verif.SdpUtils.deparametrize_mat"], "note": "Child matrices at z equal parent matrices at b + A z for every z; the maps built from equations (symmetry, equal entries) parametrise exactly the feasible points satisfying them. A child described by parametrised matrices has the same matrices as the parent."},
 {"property": "C28", "status": "partial", "theorems": ["Verif.SdpUtils.fromUpper_upperVec", "Verif.SdpUtils.upperVec_fromUpper", "Verif.SdpUtils.upperVec_mul", "Verif.SdpUtils.mem_upperInds", "Verif.SdpUtils.upperInds_length", "Verif.SdpUtils.vec2mat_mat2vec_direct", "Verif.SdpUtils.mat2vec_vec2mat_direct", "Verif.SdpUtils.vec2mat_mat2vec_upper_raises", "Verif.SdpUtils.vec2mat_mat2vec_array_raises", "Verif.SdpUtils.cutBlocks_flatten", "Verif.SdpUtils.splitVector_tiles"], "note": "Round trips hold for the full (DIRECT) form and for the upper-triangle helpers; the public pair raises for the UPPER generator and for NumPy arrays (both proved)."},
 {"property": "C29", "status": "partial", "theorems": ["Verif.LinBasis.degreeCombinations_spec_partial", "Verif.LinBasis.degreeCombinations_single_wrong", "Verif.LinBasis.degreeCombinations_single_repeats", "Verif.LinBasis.generate_spec", "Verif.LinBasis.crossExprs_spec_partial", "Verif.LinBasis.crossExprs_wrong"], "note": "Exact for two or more positive degrees (termination, no repetition, completeness). For one degree the list is wrong (proved). cross_exprs with a constant expression attaches powers to the wrong expressions (proved)."},
 {"property": "C30", "status": "proved", "theorems": ["Verif.LinSOS.linearCorrection_identity", "Verif.LinSOS.linearCorrection_weight", "Verif.LinSOS.linearCorrection_pos", "Verif.LinSOS.certificate_value", "Verif.LinSOS.certificate_nonneg", "Verif.LinSOS.linearSOS_sound", "Verif.LinSOS.linearCorrection_negative", "Verif.LinSOS.count_all_when_none", "Verif.LinSOS.linearSOS_constant_wrong"], "note": "Identity for every accepted answer; the multiplier weights add up to one. Weights are checked in the repaired branch; in the first branch they inherit the bounds of the linear program (a hypothesis, linearCorrection_negative shows it is needed). linearSOS_sound covers the whole loop, with the linear program and the exact solver as parameters."},
 {"property": "C31", "status": "proved", "theorems": ["Verif.LinMatrix.liftedRow_eq", "Verif.LinMatrix.mult_eq", "Verif.LinMatrix.reduce_eq", "Verif.LinMatrix.symMult_eq", "Verif.LinMatrix.crossPolys_eq"], "note": "All three branches (trivial, symmetric, general group). Machine integers are unbounded in the model: valid while (degree+1)^nvars < 2^31."},
 {"property": "C32", "status": "partial", "theorems": ["Verif.SdpSOS.sosProblem_sound_partial", "Verif.SdpSOS.sdpSOS_sound_partial", "Verif.SdpSOS.sdpSOS_duplicate_wrong", "Verif.SdpSOS.sosProblem_large_equality", "Verif.SdpSOS.ineqGroups_spec"], "note": "Identity, nonnegative weights, nonnegativity on feasible points and values of the substituted expressions, for every group when it is nontrivial or the products of constraints are distinct. With the trivial group and a repeated product the returned certificate is wrong: proved negation."},
 {"property": "C33", "status": "partial", "theorems": ["Verif.SdpSOS.qmoduleList_linear", "Verif.SdpSOS.qmoduleList_progressive", "Verif.SdpSOS.qmoduleList_none_partial", "Verif.SdpSOS.sdpSOS_none_raises", "Verif.SdpSOS.sdpSOS_name_raises", "Verif.SdpSOS.qmoduleList_closed"], "note": "'linear' and 'linear-progressive' are characterised exactly. 'none' with the default trivial member raises TypeError on every problem: proved negation; without it the list is characterised."},
 {"property": "C34", "status": "partial", "theorems": ["Verif.Shared.stdIneq_imp", "Verif.Shared.stdIneq_value_partial", "Verif.Shared.stdIneq_wrong", "Verif.Shared.stdEq_iff", "Verif.Shared.stdEq_value_partial", "Verif.Shared.stdEq_root_wrong", "Verif.Shared.stdEq_constant_raises", "Verif.Shared.sanitize_sound_partial"], "note": "Proved: every point that satisfies the normalised inequality satisfies the user's one; the equality zero sets agree; the whole preparation keeps feasible points. Missing: the converse fails at zeros of factors of even multiplicity (stdIneq_wrong), the square root attached to a squared equality is only right up to sign (stdEq_root_wrong), and a constant equality raises (stdEq_constant_raises)."},
 {"property": "C35", "status": "proved", "theorems": ["Verif.Shared.homogenizeNew_one", "Verif.Shared.homogenizeNew_scale", "Verif.Shared.homogenizeNew_hom", "Verif.Shared.homogenize_spec", "Verif.Shared.homogenizeNew_sign", "Verif.Shared.dehomogenize_identity", "Verif.Shared.deflate_point"], "note": "For every polynomial over a field; the identity transfer is for pointwise identities."},
 {"property": "C36", "status": "proved", "theorems": ["Verif.Shared.identifySymmetry_sound", "Verif.Shared.identifySymmetry_complete", "Verif.Shared.candidates_perm", "Verif.Shared.identifySymmetry_empty"], "note": "For the whole generated group, not only the generators. With no polynomial at all the function raises (identifySymmetry_empty)."},
 {"property": "C37", "status": "partial", "theorems": ["Verif.Shared.clearPolys_covers", "Verif.Shared.clearPolys_distinct_partial", "Verif.Shared.representation_eq_iff", "Verif.Shared.clearPolys_trivial_repeats"], "note": "Coverage for every group; no two kept polynomials in one orbit for every nontrivial group. Missing: for the trivial group the code returns the list unchanged, so repeated polynomials stay (clearPolys_trivial_repeats). Polynomials are nonzero, and homogeneous when the manager is homogeneous."},
 {"property": "C38", "status": "proved", "theorems": ["Verif.Shared.wrap_sound", "Verif.Shared.wrap_only", "Verif.Shared.wrap_error_iff", "Verif.Shared.mask_determines"], "note": "For every permutation group and constraint dictionary with distinct polynomials."},
 {"property": "C39", "status": "partial", "theorems": ["Verif.Cyc.newCyc_value_partial", "Verif.Cyc.rename_value", "Verif.Cyc.doit1_value", "Verif.Cyc.doit_value", "Verif.Cyc.contentPrimitive_value_partial", "Verif.Cyc.newCyc_prod_wrong", "Verif.Cyc.contentPrimitive_wrong"], "note": "Construction, renaming and expansion of cyclic sums keep the value at every point for every base, tuple and group; so do products whose group has as many elements as symbols. Without that condition products are wrong: newCyc_prod_wrong is a concrete witness. SymPy's Add/Mul/Pow normalisation is a parameter with a value contract."},
 {"property": "C40", "status": "partial", "theorems": ["Verif.Cyc.xrep_value_partial", "Verif.Cyc.xrep_value_tuple_partial", "Verif.Cyc.xrep_capture_wrong", "Verif.Cyc.xrep_partial_wrong"], "note": "xreplace followed by evaluation equals evaluation at the replaced point, for every expression, rule with symbol keys and fuel, when renaming captures no symbol and the group splits along the touched orbits. Both conditions are needed: the two _wrong theorems are witnesses."},
 {"property": "C41", "status": "partial", "theorems": ["Verif.Cyc.asFraction_value", "Verif.Cyc.isEqual_sound", "Verif.Cyc.history_isEqual_partial", "Verif.Cyc.dehom_xrep_value_partial", "Verif.Cyc.xreplace_stored_wrong"], "note": "A computed True certifies problem*multiplier = numerator and problem = solution; as_fraction keeps the value; both for every expression. Over histories of calls a reported True is right unless xreplace was called, which copies the stored answer (xreplace_stored_wrong). together, fraction, as_content_primitive and the zero test of SymPy are parameters with value contracts."},
 {"property": "C42", "status": "partial", "theorems": ["Verif.Text.strTxt_power", "Verif.Text.strTxt_wrong", "Verif.Text.toStringTxt_powers", "Verif.Text.superDigit_inj", "Verif.Text.toStringTxt_digit_base"], "note": "to_string(mode='txt') shows all digits (toStringTxt_powers) unless a later base begins with a digit; str_txt violates the property for exponents >= 20 (strTxt_wrong), its exact behaviour is strTxt_power. SymPy's own printer is not modelled."},
 {"property": "C43", "status": "proved", "theorems": ["Verif.Text.multiline_spec"], "note": ""},
 {"property": "C44", "status": "proved", "theorems": ["Verif.Text.completion_inserts", "Verif.Text.completion_idem", "Verif.Text.completion_complete"], "note": "Spaces are deleted first, as documented by the code."},
 {"property": "C45", "status": "proved", "theorems": ["Verif.Text.cycleExpansion_spec", "Verif.Text.cycleExpansion_long_name", "Verif.Text.expansion_tree", "Verif.Text.expansion_unbalanced"], "note": "Also covers nested s(...) and p(...) in the text front end."},
 {"property": "C46", "status": "proved", "theorems": ["Verif.Text.coefficientTriangle_spec"], "note": "Ternary branch; the quaternary branch is the array of C03. The text of a constant (short_constant_parser) is a parameter."},
 {"property": "C47", "status": "proved", "theorems": ["Verif.Ternary.quarticSolve_sound", "Verif.Ternary.quarticSolve_nonneg", "Verif.Ternary.quarticSolve_polynomial", "Verif.Ternary.quartic_ofCoeff", "Verif.Ternary.quarticDegenerate_sound", "Verif.Ternary.quarticCore_sound", "Verif.Ternary.quarticCore_real", "Verif.Ternary.quarticCore_complete", "Verif.Ternary.quarticBorder_sound", "Verif.Ternary.quarticBiased_sound", "Verif.Ternary.quarticReal_sound", "Verif.Ternary.quarticTightLoop_sound", "Verif.Ternary.symSolution_sound", "Verif.Ternary.symQuartic_sound"], "note": "Every branch of the cyclic quartic solver and of the solver for quartics symmetric in two variables. Root finders and rationalisations only supply candidates and are arbitrary parameters."},
 {"property": "C48", "status": "proved", "theorems": ["Verif.Ternary.cubicSolve_sound", "Verif.Ternary.cubicSolve_nonneg", "Verif.Ternary.cubicSolve_polynomial", "Verif.Ternary.cubicSolve_complete", "Verif.Ternary.cubicSolve_error", "Verif.Ternary.cubicSymmetric_sound", "Verif.Ternary.cubicDegenerate_sound", "Verif.Ternary.cubicParabola_sound", "Verif.Ternary.cubicNontrivial_sound", "Verif.Ternary.cubicIrrational_sound"], "note": "Every answer of sos_struct_cubic is an identity with nonnegative weights over a denominator that is positive on the octant minus a ray; over the reals the solver answers exactly the cyclic cubics that are nonnegative on the octant."},
 {"property": "C49", "status": "partial", "theorems": ["Verif.Ternary.schur_sound", "Verif.Ternary.schurinv_sound_partial", "Verif.Ternary.schurinv_two_wrong", "Verif.Ternary.specialAmgms_sound", "Verif.Ternary.amgm_sound", "Verif.Ternary.quadratic_sound", "Verif.Ternary.quadratic_complete", "Verif.Ternary.halfSide_spec", "Verif.Ternary.pCoeff_value", "Verif.Ternary.pExpr_value", "Verif.Ternary.pnrms_nonneg", "Verif.Ternary.hCoeff_value", "Verif.Ternary.hCoeff_value_neg", "Verif.Ternary.hExpr_value_partial", "Verif.Ternary.hExpr_value_neg", "Verif.Ternary.hExpr_wrong", "Verif.Ternary.hnmr_nonneg", "Verif.Ternary.hnmr_neg_nonneg"], "note": "All tables of CommonExpr, Pnrms and Hnmr: every entry is an identity except schurinv(2), which is twice the documented polynomial (schurinv_two_wrong), and the entry (1,2) of Hnmr, which is inhomogeneous and reached for m = r = 2n, n >= 2 (hExpr_wrong). Pnrms and Hnmr are proved nonnegative in the documented range of exponents."},
 {"property": "C50", "status": "proved", "theorems": ["Verif.Ternary.amgmKernel_spec", "Verif.Ternary.localIneq_spec"], "note": "The pair is coprime, as it is after the division by the gcd in local_ineq; localIneq_spec covers arbitrary collinear exponents."},
 {"property": "C51", "status": "partial", "theorems": ["Verif.Acute.acuteSolve_sound_partial", "Verif.Acute.acuteQuadratic_sound", "Verif.Acute.acuteQuadratic_complete", "Verif.Acute.acuteCubic_shows", "Verif.Acute.acuteQuartic_shows", "Verif.Acute.acuteQuartic_nonneg", "Verif.Acute.acuteDense_high", "Verif.Acute.Shows.nonneg", "Verif.Acute.acute_axis_zero", "Verif.Acute.acute_axis_wrong"], "note": "Given the contracts of the called solvers, every answer to a nonconstant homogeneous cyclic polynomial is an identity with nonnegative weights, expressions and denominator on all right and acute triangles; quadratics are decided exactly, quartics are nonnegative everywhere. Missing: symmetric polynomials of degree >= 5 that vanish on (t,1,1) are answered with 0 (acute_axis_wrong), so they are excluded; the sextic, general cyclic and univariate provers are contracts."},
 {"property": "C52", "status": "partial", "theorems": ["Verif.SymSOS.posX_eq", "Verif.SymSOS.posW_eq", "Verif.SymSOS.pos_formulas", "Verif.SymSOS.real_formulas", "Verif.SymSOS.extractFactor_value", "Verif.SymSOS.transPos_value", "Verif.SymSOS.transReal_value", "Verif.SymSOS.transReal_exact", "Verif.SymSOS.transPos_exact", "Verif.SymSOS.pos_nonneg", "Verif.SymSOS.real_nonneg", "Verif.SymSOS.posW_eq_zero", "Verif.SymSOS.symMethod_sound_partial", "Verif.SymSOS.symMethod_positive_nonneg", "Verif.SymSOS.divZ_ok", "Verif.SymSOS.constraint_sign_wrong"], "note": "Three variables. Exactness is proved at every real point for the real method and at every positive point for the positive one. Contracts: SymPy's divmod, and the p,q,r form of the input. The default sign declarations are proved; signs inferred from transformed constraints can be wrong (constraint_sign_wrong). The last check of the driver catches these signs: C100. The four-variable transformation is C98. Not modelled: the zero polynomial."},
 {"property": "C53", "status": "proved", "theorems": ["Verif.SymSOS.pivoting_sound", "Verif.SymSOS.pivoting_terminates", "Verif.SymSOS.monoBiv_ok"], "note": "Contract: structural_sos_2vars (C59) on homogeneous bivariate polynomials."},
 {"property": "C54", "status": "partial", "theorems": ["Verif.Backend.addConstraint_spec", "Verif.Backend.addConstraint_unknown", "Verif.Backend.createDual_spec", "Verif.Backend.createDualAny_partial", "Verif.Backend.createDual_degenerate_wrong", "Verif.Backend.minEigen_dict", "Verif.Backend.sdpa_retrieve", "Verif.Backend.unsvec_svec", "Verif.Backend.svec_inner", "Verif.Backend.svec_affine", "Verif.Backend.svec_nonsymmetric_wrong", "Verif.Backend.primal_restore", "Verif.Backend.primal_constraint_partial", "Verif.Backend.primal_constraint_wrong"], "note": "Dual problems with at least one variable: accepted vectors characterised exactly, any scaling; SDPA column trimming and Clarabel/Mosek triangle packing are exact for symmetric data; the primal eigenvalue shift is undone exactly. Violated: no variables, primal user constraints under an eigenvalue shift, non-symmetric packed rows. Exact arithmetic instead of floats; the solvers themselves are outside the model."},
 {"property": "C55", "status": "partial", "theorems": ["Verif.IntMul.npDot_exact", "Verif.IntMul.matmul_exact_partial", "Verif.IntMul.matmul_entries_partial", "Verif.IntMul.matmulMultiple_exact_partial", "Verif.IntMul.symmetricBilinear_exact_partial", "Verif.IntMul.bilinearMultiple_exact_partial", "Verif.IntMul.matmul_overflow_wrong", "Verif.IntMul.bilinearMultiple_empty_raises"], "note": "Exact whenever no integer part contains -2^63; the guard misses that value (matmul_overflow_wrong). SymPy's primitive is a parameter with its contract as hypothesis."},
 {"property": "C56", "status": "proved", "theorems": ["Verif.Sparse.extractFactors_sound", "Verif.Sparse.wrapped_some", "Verif.Sparse.sosCommon_sound"], "note": "Solvers are parameters assumed correct."},
 {"property": "C57", "status": "proved", "theorems": ["Verif.Quaternary.cubicSymmetric_sound", "Verif.Quaternary.quarticFluorite_sound", "Verif.Quaternary.quarticReal_sound"], "note": "identity and sign of the three solvers; interval candidates are an arbitrary list"},
 {"property": "C58", "status": "partial", "theorems": ["Verif.Univariate.proveUnivariate_sound_partial", "Verif.Univariate.proveUnivariate_wrong", "Verif.Univariate.proveIrr_sound"], "note": "false in general (misaligned residual, see C20); proved under the alignment condition the code does not check"},
 {"property": "C59", "status": "proved", "theorems": ["Verif.Bivariate.linearIneq_sound", "Verif.Bivariate.struct2_sound", "Verif.Bivariate.proveUnivariate_strict"], "note": "Relative to the contract of prove_univariate (ProverStrict), which C58 shows is violated by misaligned residuals; factor_list is a parameter. ProverStrict is met by the model of the prover on degree at most two (exQuad_strict)."},
 {"property": "C60", "status": "proved", "theorems": ["Verif.LinSolve.solveCsrGeneral_ok", "Verif.LinSolve.solveCsrGeneral_error_iff"], "note": ""},
 {"property": "C61", "status": "partial", "theorems": ["Verif.SdpPrimal.primalNull_feasible", "Verif.SdpPrimal.primalSym_feasible", "Verif.SdpPrimal.zeroDiagonals_sound_partial", "Verif.SdpPrimal.zeroDiagonals_wrong", "Verif.SdpPrimal.primalMask_pad", "Verif.SdpPrimal.primalMask_restrict", "Verif.SdpPrimal.primalMask_zeroDiagonals", "Verif.SdpPrimal.pad_decomposition"], "note": "Zero diagonals are right for equations with symmetric coefficient matrices; for others a wrong zero is reported (proved by a feasible witness). Everything else holds in full."},
 {"property": "C62", "status": "proved", "theorems": ["Verif.SdpPrimal.toDual_feasible", "Verif.SdpPrimal.toDual_error"], "note": ""},
 {"property": "C63", "status": "proved", "theorems": ["Verif.Rationalize.rationalize_close", "Verif.Rationalize.rationalize_close_of_ends", "Verif.Rationalize.rationalize_nonneg", "Verif.Rationalize.rationalizeArray_close", "Verif.Rationalize.rationalizeArray_nonneg"], "note": "The float is an exact rational number; arithmetic of the expansion is exact in the model."},
 {"property": "C64", "status": "proved", "theorems": ["Verif.Text.delatex_balanced", "Verif.Text.delatexLoop_fuel", "Verif.Text.delatex_tail_wrong"], "note": "The placement of the closing parenthesis is wrong near the end of the text, see delatex_tail_wrong."},
 {"property": "C65", "status": "proved", "theorems": ["Verif.Text.reader_ignore", "Verif.Text.reader_strict"], "note": "Whether a line can be parsed is a parameter."},
 {"property": "C66", "status": "proved", "theorems": ["Verif.Ternary.acyclicQuadratic_sound", "Verif.Ternary.acyclicQuadratic_complete", "Verif.Ternary.acyclicQuadratic_polynomial"], "note": "Soundness and completeness over every ordered field: the solver answers exactly the forms that are nonnegative on the octant."},
 {"property": "C67", "status": "partial", "theorems": ["Verif.Ternary.acyclicCubic_sound", "Verif.Ternary.acyclicCubic_error", "Verif.Ternary.hexagon_sound", "Verif.Ternary.symCubic_sound", "Verif.Ternary.symCubic_nonneg", "Verif.Ternary.symCubic_error", "Verif.Ternary.acyclicCubic_wrong"], "note": "Every answer is an identity with nonnegative weights. The last clause is false: a^2*b+a*b^2+a*c^2+b*c^2+100*a*b*c raises TypeError (acyclicCubic_wrong); acyclicCubic_error shows this is the only exception and confines it to inputs without pure cubes."},
 {"property": "C68", "status": "partial", "theorems": ["Verif.Ternary.amgm3_sound", "Verif.Ternary.amgm3_error", "Verif.Ternary.sparseAmgm_sound_partial", "Verif.Ternary.sparseAmgm_wrong", "Verif.Ternary.amgm3_degrees_wrong"], "note": "Sound for monomials of one degree; the full claim fails for multiples of s(a^d), which are doubled (sparseAmgm_wrong), and for monomials of unequal degrees (amgm3_degrees_wrong). The depth of the recursion is not bounded by a theorem."},
 {"property": "C69", "status": "partial", "theorems": ["Verif.Ternary.heuristic_sound_partial", "Verif.Ternary.heuristic_total", "Verif.Ternary.heuristic_wrong", "Verif.Ternary.pnrms_nonneg", "Verif.Ternary.hnmr_nonneg", "Verif.Ternary.hnmr_neg_nonneg"], "note": "Proved for every degree except 14, 21, ... (multiples of 7), where the wrong table entry of Hnmr can be used: heuristic_wrong gives an input with sound sub-solvers and a wrong answer. Sub-solvers are parameters with a soundness hypothesis."},
 {"property": "C70", "status": "partial", "theorems": ["Verif.Cyc.rewriteSym_value_partial", "Verif.Cyc.rwCosets_value", "Verif.Cyc.cosets_of_normal", "Verif.Cyc.rewrite_wrong"], "note": "Every expression whose cyclic parts are not nested, when products of coset representatives with the target group run through the group (true for normal subgroups). False for right coset representatives in general: rewrite_wrong."},
 {"property": "C71", "status": "proved", "theorems": ["Verif.Dense.denseSolve_sound", "Verif.Dense.dense_sound", "Verif.Dense.dense_error", "Verif.Dense.dense_ends", "Verif.Dense.div_disc", "Verif.Dense.subtract_exact", "Verif.Dense.subtractor_ok", "Verif.Dense.exExt_sound", "Verif.Dense.exDense_answered"], "note": "Under the contracts of DenseExt.Sound for polynomial division, the univariate prover and the general cyclic solver, which exExt_sound shows to be satisfiable. dense_error: the only error left is that a proof of the univariate prover contains a zero or too high-degree square."},
 {"property": "C72", "status": "proved", "theorems": ["Verif.Nvars.solve_sound", "Verif.Nvars.solve_no_error", "Verif.Nvars.attempt_answers", "Verif.Nvars.identity", "Verif.Nvars.part_one", "Verif.Nvars.part_two", "Verif.Nvars.exFourth_answered", "Verif.SymForms.symQuartic"], "note": "For every n. The search common_region_of_conics is an arbitrary function, no contract is needed for soundness."},
 {"property": "C73", "status": "proved", "theorems": ["Verif.ClearFree.clear_spec", "Verif.ClearFree.removed_disjoint", "Verif.ClearFree.clear_sound", "Verif.ClearFree.clear_complete", "Verif.ClearFree.asPoly_value", "Verif.ClearFree.constant_escapes", "Verif.ClearFree.ex_cleared", "Verif.ClearFree.ex_occurs"], "note": "Union-find with path compression: invariant that the parent pointers form a forest whose components are the links seen so far; find terminates within n+1 steps. The order of Python sets is an arbitrary permutation. Constants are excluded: there gens[0] becomes active without being linked (constant_escapes), which _structural_sos never reaches."},
 {"property": "C74", "status": "proved", "theorems": ["Verif.PolyTools.verifyFast_exact", "Verif.PolyTools.verifySlow_exact", "Verif.PolyTools.verifySlow_zero", "Verif.PolyTools.verifySlow_other", "Verif.PolyTools.fast_eq_slow", "Verif.PolyTools.verifySymmetric_exact", "Verif.PolyTools.ex_stripped", "Verif.PolyTools.ex_fast", "Verif.PolyTools.ex_slow", "Verif.PolyTools.cyclic_not_homogeneous"], "note": "Loop invariants on the pointer v and the remaining degree rem; no write leaves the array. The dense representation is SymPy's (Stripped: no leading zeros). For other numbers of variables only the slow algorithm is modelled."},
 {"property": "C75", "status": "proved", "theorems": ["Verif.Pqr.pqrSym_eq", "Verif.Pqr.pqrSym_exact", "Verif.Pqr.pqrSym_symbols", "Verif.Pqr.pqrCyc_eq", "Verif.Pqr.pqrCyc_exact", "Verif.Pqr.pqrCyc_unique", "Verif.Pqr.pqrKer_eq", "Verif.Pqr.exists_sound", "Verif.Pqr.exCyc_ok", "Verif.Pqr.exCyc_value"], "note": "SymPy's symmetrize and div are parameters with their documented contracts; exists_sound shows that functions with these contracts exist (fundamental theorem of symmetric polynomials)."},
 {"property": "C76", "status": "partial", "theorems": ["Verif.Ternary.septicSolve_answer", "Verif.Ternary.septicSolve_partial", "Verif.Ternary.septicSolve_error", "Verif.Ternary.septicStar_holds", "Verif.Ternary.hexD_pos", "Verif.Ternary.fastQuartic_ok", "Verif.Ternary.squarePerturbation_mem", "Verif.Ternary.squarePerturbation_square", "Verif.Ternary.septic_ofCoeff", "Verif.Ternary.quartic_contract", "Verif.Ternary.exSeptic_sound", "Verif.Ternary.exHexagon_answered", "Verif.Ternary.septicSolve_weights_wrong", "Verif.Ternary.septicSolve_raises_wrong"], "note": "Proved: every answer is an identity with nonnegative expressions, the stars' answers have nonnegative weights, and all weights are nonnegative when the polynomial is nonnegative; the only own exception is ValueError from min([]). The full claim is false: septicSolve_weights_wrong gives a polynomial negative at (1,1,0) that is answered with negative weights, septicSolve_raises_wrong one on which ValueError is raised. Root finders, optimize_discriminant, the recursive solver and sos_struct_septic_symmetric are parameters; the contract of the quartic solver is discharged by quartic_contract."},
 {"property": "C77", "status": "proved", "theorems": ["Verif.Ternary.septicSymmetric_sound", "Verif.Ternary.septicSymmetric_error", "Verif.Ternary.septicSymmetric_contract", "Verif.Ternary.septicQuad_ok", "Verif.Ternary.restructure_spec", "Verif.Ternary.axisSolve_ok", "Verif.Ternary.decomp", "Verif.Ternary.nonneg_of_pos", "Verif.Ternary.exMono_sound", "Verif.Ternary.exSepticSym_answered"], "note": "The whole file and _restructure_quartic_polynomial are modelled. prove_univariate is a parameter with the contract ProverSound, sos_struct_liftfree_for_six one with the contract that its answers are proofs. septicSymmetric_contract discharges the contract that C76 places on this function."},
 {"property": "C78", "status": "proved", "theorems": ["Verif.Ternary.hexSym_sound", "Verif.Ternary.hexSym_error", "Verif.Ternary.sexticTree_sound", "Verif.Ternary.sexticTree_raises", "Verif.Ternary.rationalizeFunc_sound", "Verif.Ternary.rationalizeFunc_none", "Verif.Ternary.rfBound_spec", "Verif.Ternary.rationalizeFunc_valid", "Verif.Ternary.sextic_ofCoeff", "Verif.Ternary.exND_sound", "Verif.Ternary.hexSym_ex1", "Verif.Ternary.hexSym_ex2", "Verif.Ternary.hexSym_ex3", "Verif.Ternary.sexticTree_ex1", "Verif.Ternary.sexticTree_ex2", "Verif.Ternary.rationalizeFunc_ex"], "note": "sexticTree_raises records a fault: the tree solver raises TypeError on s((a^3-2abc)^2), which is a sum of squares. The real roots and their approximations are a list of candidates; the sign condition of an exact candidate is the contract CandsExact."},
 {"property": "C79", "status": "partial", "theorems": ["Verif.Ternary.nonicSolve_sound_partial", "Verif.Ternary.nonicSolve_poly_partial", "Verif.Ternary.nonicTree_ok", "Verif.Ternary.nonicHexagon_ok", "Verif.Ternary.nonicHexagram_ok", "Verif.Ternary.gearCore_ok", "Verif.Ternary.nonicSolve_c801_wrong", "Verif.Ternary.nonicSolve_root_wrong", "Verif.Ternary.nonicSolve_gear_raises", "Verif.Ternary.nonic_ofCoeff", "Verif.Ternary.exNonic_sound", "Verif.Ternary.exNonicTree", "Verif.Ternary.exNonicTree2", "Verif.Ternary.exNonicHexagon", "Verif.Ternary.exNonicHexagon2", "Verif.Ternary.exNonicHexagram", "Verif.Ternary.exNonicGear", "Verif.Ternary.exNonicGear2"], "note": "The whole file is modelled. The full statement is false: nonicSolve_c801_wrong (the hexagon case does not look at the coefficient of a^8c and answers a polynomial that is negative) and nonicSolve_root_wrong (the tree case accepts a rational root below minus one). The partial theorem excludes exactly these two. nonicSolve_gear_raises: the search for a weight can raise TypeError. Parameters with contracts: the cyclic solver called on sextics, the lists of root candidates."},
 {"property": "C80", "status": "proved", "theorems": ["Verif.Ternary.octicSolve_sound", "Verif.Ternary.octicSolve_poly", "Verif.Ternary.octicSolve_error", "Verif.Ternary.octicPoly2_eq", "Verif.Ternary.octic_ofCoeff", "Verif.Ternary.Holds.inv", "Verif.Ternary.exOctic_sound", "Verif.Ternary.exOctic_answered"], "note": "sos_struct_octic_symmetric and the cyclic solver on septics are parameters with the contract that their answers are complete proofs; exOctic discharges the second with the symmetric septic solver of C77."},
 {"property": "C81", "status": "partial", "theorems": ["Verif.Manifold.nullspaceFromRoots_sound_partial", "Verif.Manifold.nonvanishingOrders_sound", "Verif.Manifold.oneSided_of_feasible", "Verif.Manifold.rootSpaceGeneral_sound", "Verif.Manifold.nullspace_wrong", "Verif.Manifold.diffOrders_mem", "Verif.Manifold.diff_iterate", "Verif.Manifold.diff_spec", "Verif.Manifold.work_sound", "Verif.Manifold.work_steps", "Verif.Manifold.dirLoop_fuel", "Verif.Manifold.orders_steps", "Verif.Manifold.asEntry_zero", "Verif.Manifold.asEntry_diff", "Verif.Manifold.asEntry_dir", "Verif.Manifold.eval_pdiff", "Verif.Manifold.findrootBinary_iff", "Verif.Manifold.exNullspace"], "note": "Proved for constraints that are monomials with positive coefficients of equal parity of degree (RootSubspace.nullspace raises otherwise) without equations, at all orders; and for all constraints and equations at order zero. The full statement is false: nullspace_wrong shows b c^2 + a^2 c + d^3 with the constraints a, b - 2a, c, d, where the imposed equation excludes every certificate. Not modelled: irrational roots, the ternary root search (the roots are an argument), mixed derivatives (never requested)."},
 {"property": "C82", "status": "proved", "theorems": ["Verif.Roots.den_pos_iff", "Verif.Roots.quad_vanishes", "Verif.Roots.uv_unique", "Verif.Roots.uv_rot", "Verif.Roots.uv_eq_iff", "Verif.Roots.cyclicSum_eq", "Verif.Roots.standardize_isRot", "Verif.Roots.standardize_sum", "Verif.Roots.standardize_max", "Verif.Roots.standardize_rot", "Verif.Roots.standardize_scale", "Verif.Roots.isCorner_iff", "Verif.Roots.isBorder_iff", "Verif.Roots.isSymmetric_iff"], "note": "Exact roots with nonzero sum. Numerical roots and algebraic numbers are values of an ordered field here; the reduction of algebraic numbers (RootRational.cyclic_sum uses a shortcut for degree below 20) and the rationalization are not modelled."},
 {"property": "C83", "status": "proved", "theorems": ["Verif.Roots.tanQuadratic_vanishes", "Verif.Roots.tanCubic_vanishes", "Verif.Roots.tanCubic_ne_nil", "Verif.Roots.borderX_spec", "Verif.Roots.tanBorder_vanishes", "Verif.Roots.tanBorderQuad_vanishes", "Verif.Roots.tanSymBorder_vanishes", "Verif.Roots.symX_spec", "Verif.Roots.tanSym_vanishes", "Verif.Roots.tanSymQuad_vanishes", "Verif.Roots.mix11_vanishes", "Verif.Roots.mix11_raises", "Verif.Roots.mix11_total", "Verif.Roots.mix12_vanishes", "Verif.Roots.mixSym_vanishes", "Verif.Roots.tanRational_vanishes", "Verif.Roots.tanAcBorder_vanishes", "Verif.Roots.lineThrough_vanishes", "Verif.Roots.tanMulti_vanishes"], "note": "The parameters are exact here; the code rationalizes them with a tolerance (rl, near, near2), which is not modelled, nor are the tangents for irrational parameters, quartic tangents and from_uv."},
 {"property": "C84", "status": "partial", "theorems": ["Verif.Ternary.hexagramSolve_holds", "Verif.Ternary.rotatedTree_answer", "Verif.Ternary.hexagonToHexagram_holds", "Verif.Ternary.hexagonSdp_ident", "Verif.Ternary.hexagonSdp_answer", "Verif.Ternary.second_nonneg", "Verif.Ternary.fullSdp_answer", "Verif.Ternary.sexticSolve_partly", "Verif.Ternary.sexticSolve_coeff", "Verif.Ternary.sexticSolve_coeff_ident", "Verif.Ternary.sextic_toHexagram_raises", "Verif.Ternary.exF1_nonneg", "Verif.Ternary.sextic_sdp_raises", "Verif.Ternary.sextic_full_raises", "Verif.Ternary.exF3_nonneg", "Verif.Ternary.sextic_sdp_negative", "Verif.Ternary.exF4_nonneg"], "note": "The full claim is false: nonnegative polynomials for which the solver raises TypeError (hexagon to hexagram, full sdp) or answers with a negative weight (hexagon sdp, for polynomials positive at the centre) are given. Proved: every answer is an identity; hexagram answers are complete proofs; all other answers are complete proofs if the polynomial is nonnegative, except for that one weight. The symmetric solvers, theorem 2 of the hexagram and the candidates of the searches are contracts."},
 {"property": "C85", "status": "partial", "theorems": ["Verif.Ternary.quinHexagon_sound", "Verif.Ternary.quinHexagon_complete", "Verif.Ternary.quinUp_sound", "Verif.Ternary.quinMid_sound", "Verif.Ternary.quinLow_sound", "Verif.Ternary.quinSym_sound", "Verif.Ternary.quinSym_nonneg", "Verif.Ternary.quintic_ofCoeff", "Verif.Ternary.quinSym_refuse", "Verif.Ternary.quinLow_refuse", "Verif.Ternary.quinSym_first_complete", "Verif.Ternary.quinSym_trivial_complete", "Verif.Ternary.quinSym_degenerate_fault", "Verif.Ternary.quinSym_vertical_fault", "Verif.Ternary.quinSym_negative_weight", "Verif.Ternary.quinSym_schur_lost"], "note": "The full claim is false. For a polynomial that is negative at (1,1,0) the solver answers with nonnegative weights, one expression of which is not nonnegative; for another it raises TypeError; for a third a weight is negative; and the sign check at the end rejects every answer with the factor CyclicSum(a*(a-b)*(a-c)). Proved: outside the degenerate secant every answer is an identity with nonnegative expressions and a positive denominator; its weights are nonnegative unless the last answer of the secant method has one of the two untested weights negative; the first method and the trivial case are complete; the immediate refusals are right. Contracts: the quartic solver (discharged by quartic_contract), the double root, and that twenty digits do not change one test."},
 {"property": "C86", "status": "partial", "theorems": ["Verif.Form.ufsFind_spec", "Verif.Form.union_merged", "Verif.Form.ufs_find_eq", "Verif.Form.ufs_find_max", "Verif.Form.ufs_keys", "Verif.Form.ufsSize_orbit", "Verif.Form.getOrder_stabilizer", "Verif.Form.extracted_sum", "Verif.Form.reduceFactors_value_partial", "Verif.Form.reduceFactors_value_sign", "Verif.Form.commonPow_pos", "Verif.Form.reduceFactors_wrong_sign"], "note": "The standard form is proved in full for the terms and their coefficients (not for the characters of the string). The factor form is proved for groups of even order or if no permuted factor is the negative of a factor, and up to sign in general. The full claim for the factor form is false: for (2a-b)(2b-c)(2c-a) under the cyclic group the printed form is the negative, because the sign belongs to the factor from which the loop started and the printed representative is another; this uses that Poly.compare orders these factors by their dense representation, which could not be run here."},
 {"property": "C87", "status": "partial", "theorems": ["Verif.Server.methodCheck_ok", "Verif.Server.methodCheck_total", "Verif.Server.methodCheck_many_variables", "Verif.Server.methodCheck_default_order", "Verif.Server.managerSos_answer", "Verif.Server.managerSos_no_solution", "Verif.Server.silence_opt", "Verif.Server.run_defaults", "Verif.Server.run_verbose", "Verif.Server.run_stays_quiet", "Verif.Server.sosTask_one", "Verif.Server.sosTask_success", "Verif.Server.rootTask_messages", "Verif.Server.handle_answered", "Verif.Server.handle_unanswered", "Verif.Server.sosTask_without_configs", "Verif.Server.addLines_tangents"], "note": "Parts of the claim are false, with theorems that say so: a request with the action 'sos' but not 'findroot' ends with UnboundLocalError and is never answered; a request without configs is always answered by a failure; the manager raises AttributeError if nothing is found, IndexError for more than ten variables, TypeError for the default method order above the degree bound; one call with verbose False silences every later call with the default configuration. Proved: addressing, order and uniqueness of messages for every request, exactly one answer when both actions are present, tangents reach the solver, and over every history the default configuration changes only in the two verbose options. The removal of unused variables and the rendering are not modelled."},
 {"property": "C88", "status": "partial", "theorems": ["Verif.Grid.gridValue_exact", "Verif.Grid.gridValue_limit", "Verif.Grid.precal_get", "Verif.Grid.heatIndex_point", "Verif.Grid.heatPixels_inside", "Verif.Grid.localMinima_all", "Verif.Grid.localMinima_cyc", "Verif.Grid.localMinima_cyc_complete", "Verif.Grid.localMinima_sixty", "Verif.Grid.localMinima_cyc_lost"], "note": "Proved in full for the size in use (60) and for all sizes not of the form 3m+1. The claim is false for sizes 3m+1: localMinima_cyc_lost gives, for every m >= 2, a cyclic function with a strict minimum at (m+1,m+1,m-1) that is not reported under any rotation. Beyond the limits the grid is silently zero (gridValue_limit). Values are proved for the integer method; the default method evaluates in floating point and is not modelled, nor are the colours."},
 {"property": "C89", "status": "partial", "theorems": ["Verif.Ternary.octicSymmetric_sound", "Verif.Ternary.octicSymmetric_ident", "Verif.Ternary.octicSolve_full", "Verif.Ternary.octHexagonSdp_sound", "Verif.Ternary.octHexagram_sound", "Verif.Ternary.hexagonCase1_sound", "Verif.Ternary.hexagonCase2_sound", "Verif.Ternary.hexagonCase2_wrong", "Verif.Ternary.octicSymmetric_wrong", "Verif.Ternary.octicSymmetric_negative", "Verif.Ternary.octicSymmetric_nan", "Verif.Ternary.dhSolve_zero", "Verif.Ternary.inverseQuartic_sound", "Verif.Ternary.octicSymmetric_ex"], "note": "Proved outside two cases, in which the claim is false. (1) If c611 = -2*c620 and c521 != -c530 the second formula for hexagons is not an identity (hexagonCase2_wrong: exactly then, the value at (1,1,0) differs by c530 + c521); octicSymmetric_wrong is a polynomial with value below zero at (100,1,1) that gets an answer which looks like a proof. (2) At the parameter -1 the weight of s(a)^2 p(a-b)^2 is not tested and can be negative (octicSymmetric_negative). Further faults: an answer with nan for a polynomial that is nonnegative (octicSymmetric_nan) and a division by zero for c611 = 2*c620 (dhSolve_zero). Rational coefficients; the root finding is a parameter."},
 {"property": "C90", "status": "partial", "theorems": ["Verif.SdpSolve.solve_sound", "Verif.SdpSolve.solve_false", "Verif.SdpSolve.solve_complete", "Verif.SdpSolve.propagate_certified", "Verif.SdpSolve.rowMask_link", "Verif.SdpSolve.matrixTransform_link", "Verif.SdpSolve.vectorTransform_link", "Verif.SdpSolve.verifyPretty_iff", "Verif.SdpSolve.simul_close", "Verif.SdpSolve.congPert_near", "Verif.SdpSolve.project_feasible", "Verif.SdpSolve.project_closest", "Verif.SdpSolve.primal_found_sat", "Verif.SdpSolve.solve_forced_shape", "Verif.SdpSolve.forced_unprojected", "Verif.SdpSolve.register_infeasible", "Verif.SdpSolve.register_array_refused", "Verif.SdpSolve.solve_mask_raises", "Verif.SdpSolve.solve_ignores_default", "Verif.SdpSolve.solve_numer_parent", "Verif.SdpSolve.solve_no_rational", "Verif.SdpSolve.symbolic_wrong", "Verif.SdpSolve.register_asymmetric", "Verif.SdpSolve.solve_complete_ex", "Verif.SdpSolve.solve_sound_ex", "Verif.SdpSolve.symbolic_wrong_ex"], "note": "With allow_numer=0: soundness for every chain of sound transformations (solve_sound; the assumption is discharged for row masking, subspaces and reparametrisation), what False means (solve_false), and success for strictly feasible numerical solutions of dual problems (solve_complete); verify_is_pretty, the rounding and the projection are characterised. The claim is false in these cases, each with a theorem: with allow_numer>=3 (and 2) the decompositions are tuples with one element and cannot be unpacked (solve_forced_shape, for every problem), and on a primal problem y is not the vector of S; with allow_numer=1 a transformed problem raises ValueError (solve_numer_parent); a masked primal problem without a solution raises TypeError instead of answering False (solve_mask_raises); equations without a solution are accepted by register_y (register_infeasible); matrices that are not symmetric get a wrong decomposition (register_asymmetric); use_default_configs is ignored by transformed problems; S_from_y() of a primal problem is wrong for every block of size at least two (symbolic_wrong). Not modelled: floating point rounding, the reg argument, row vectors, problems with several parents."},
 {"property": "C91", "status": "proved", "theorems": ["Verif.LinCollect.collect_val", "Verif.LinCollect.collect_eq_poly", "Verif.LinCollect.collectIneq_val", "Verif.LinCollect.collectEq_val", "Verif.LinCollect.multiplier_val", "Verif.LinCollect.optimalLoop_perm", "Verif.LinCollect.optimalFactor_best", "Verif.LinCollect.collect_not_longer", "Verif.LinCollect.collect_no_multiplier", "Verif.LinCollect.collect_val_ex", "Verif.LinCollect.repeated_argument_wrong"], "note": "Assumed about SymPy: together keeps the value, as_content_primitive splits off a positive constant, a product holds no argument twice (needed: repeated_argument_wrong) and no power with exponent zero. The identity of the certificate itself is C30."},
 {"property": "C92", "status": "partial", "theorems": ["Verif.Ternary.quintic_sound_partial", "Verif.Ternary.quintic_nonneg_partial", "Verif.Ternary.quinHex_holds", "Verif.Ternary.windmill_holds", "Verif.Ternary.windCore_holds", "Verif.Ternary.unc5_holds", "Verif.Ternary.hexPqz_holds", "Verif.Ternary.firstMethod_holds", "Verif.Ternary.uvxyLoop_holds", "Verif.Ternary.hexPqz_nine_wrong", "Verif.Ternary.quintic_nine_wrong", "Verif.Ternary.unc5_wrong", "Verif.Ternary.quintic_windmill_wrong", "Verif.Ternary.wX_sound"], "note": "The full claim is false: for p*q = 9 a term is dropped (quintic_nine_wrong), and for windmills with a positive sum of coefficients the coefficient of a^2 b^2 c is ignored, so that a quintic that is negative at (1, 5, 2) gets an answer (quintic_windmill_wrong). These quintics are excluded by the hypothesis `Doubtful`. The third method of _sos_struct_quintic_full (348-597) and the solvers for cubics and symmetric quintics are called through a contract (Q5Ext.Sound); the latter two are C48 and C85."},
 {"property": "C93", "status": "partial", "theorems": ["Verif.Ternary.structural3_nonneg_partial", "Verif.Ternary.cyclic3_value_partial", "Verif.Ternary.acyclic3_value_partial", "Verif.Ternary.acyclicQuartic_value_partial", "Verif.Ternary.acyclicQuartic_terms", "Verif.Ternary.extract3_value", "Verif.Ternary.chain3_some", "Verif.Ternary.chain3_error", "Verif.Ternary.structural3_odd", "Verif.Ternary.structural3_caught", "Verif.Ternary.Table.cancelAbc", "Verif.Ternary.Table.cancelK", "Verif.Ternary.Table.isCyclic", "Verif.Ternary.cyclic3_doubled_wrong", "Verif.Ternary.acyclicQuartic_wrong", "Verif.Ternary.entX_sound", "Verif.Ternary.ex_structural3", "Verif.Ternary.ex_structural3_nonneg", "Verif.Ternary.ex_acyclicQuartic"], "note": "The full claim is false: acyclicQuartic_wrong (the coefficients of a*c^3 and b*c^3 are not compared, so (a^2+b^2+c^2)^2-100*b*c^3 gets a sum of squares) and cyclic3_doubled_wrong (a^7bc+ab^7c+abc^7 gets an answer of twice its value). The partial theorems exclude these and the faults recorded for the single solvers (Suspect, Uneven). The solvers of degree two to nine are the models of the other claims, each with its own contracts for the searches (CycExt.Sound). That the expression tree has the value of the certificate is a hypothesis on the answer at hand."},
 {"property": "C94", "status": "partial", "theorems": ["Verif.Rpa.red_spec", "Verif.Rpa.split_covers", "Verif.Rpa.step_spec", "Verif.Rpa.rpa_sound", "Verif.Rpa.rpa_none", "Verif.Rpa.rpa_returns", "Verif.Rpa.rpa_raises", "Verif.Rpa.rpa_optimal_partial", "Verif.Rpa.ok_of_rises", "Verif.Rpa.exactRoot_sound", "Verif.Rpa.gMax_le_iff", "Verif.Rpa.gmop_transform", "Verif.Rpa.gmop_sound", "Verif.Rpa.gmop_none", "Verif.Rpa.gmop_returns", "Verif.Rpa.gmop_optimal_partial", "Verif.Rpa.asDm_spec", "Verif.Rpa.addIneq_spec", "Verif.Rpa.polyopt_sound_partial", "Verif.Rpa.polyopt_none_partial", "Verif.Rpa.polyopt_returns_partial", "Verif.Rpa.polyopt_skip", "Verif.Rpa.polyopt_refuse", "Verif.Rpa.rpa_wrong", "Verif.Rpa.rpa_infeasible_wrong", "Verif.Rpa.polyopt_refuse_wrong", "Verif.Rpa.polyopt_skip_wrong", "Verif.Rpa.polyopt_empty_wrong", "Verif.Rpa.ex_rpa_optimal", "Verif.Rpa.exShift_sound", "Verif.Rpa.ex_polyopt"], "note": "The full claim is false. rpa_wrong: vertices that are not above the corner of the reduced box are dropped, so a run that converges can miss a better point by more than the tolerance; the optimality theorems assume that no step drops one (Lossless). rpa_infeasible_wrong: a problem without feasible points can raise ValueError. polyopt_skip_wrong and polyopt_refuse_wrong: a constraint without the first variable is ignored or makes the problem infeasible. polyopt_empty_wrong: constraints x>=3 and x<=1 are answered by x=3. Proved without these restrictions: returned points are feasible, a run without a point refutes all better points (so a second run with the returned value certifies it), and feasible problems do not raise. Numbers are exact instead of floats; the root search, the random choice of the next box and shift_list are parameters with contracts that are shown to be satisfiable."},
 {"property": "C95", "status": "partial", "theorems": ["Verif.Ternary.sxHexReal_spec", "Verif.Ternary.sxHexSdp_sound", "Verif.Ternary.sxHexagon_sound", "Verif.Ternary.sxHexagon_error", "Verif.Ternary.sxHexagon_raises_wrong", "Verif.Ternary.schurCases_sound", "Verif.Ternary.schurSplit_sound", "Verif.Ternary.iranEasy_sound", "Verif.Ternary.iranBorder_sound", "Verif.Ternary.iranRat_sound", "Verif.Ternary.iranMain_sound", "Verif.Ternary.sxIran_sound", "Verif.Ternary.sxIran_nonneg", "Verif.Ternary.sxIran_error", "Verif.Ternary.schurCase3_wrong", "Verif.Ternary.easy3_wrong", "Verif.Ternary.easy5_wrong", "Verif.Ternary.ex_sxHexReal", "Verif.Ternary.ex_sxHexSdp", "Verif.Ternary.ex_iranMain"], "note": "The full claim is false. schurCase3_wrong: the third Schur case omits rem*a^2b^2c^2. easy3_wrong: the third easy case of iran96 forgets a term. easy5_wrong: the fifth easy case keeps a stale variable (shown for inputs on which the lifted polynomial is not solved first). sxHexagon_raises_wrong: a missing solution is compared and raises TypeError although a later branch has an answer. sxIran_sound says that every answer is an identity or one of these three, and sxIran_nonneg that nonnegativity follows in all cases; sxHexagon_error and sxIran_error list the inputs that raise. Root isolation, square roots and the lifted solver are parameters with contracts that are shown to be satisfiable."},
 {"property": "C96", "status": "partial", "theorems": ["Verif.Ternary.axis_form", "Verif.Ternary.sdpSol_sound", "Verif.Ternary.sxFullSdp_sound", "Verif.Ternary.sdpSol_complete", "Verif.Ternary.sxFullSdp_complete", "Verif.Ternary.ultBorder_sound", "Verif.Ternary.axis_identity", "Verif.Ternary.axisP_spec", "Verif.Ternary.axisQuartic_identity", "Verif.Ternary.axis_degenerate", "Verif.Ternary.ultAxis_sound", "Verif.Ternary.diffPoly_form", "Verif.Ternary.twoDiff_sound", "Verif.Ternary.ultTwo_sound", "Verif.Ternary.ultTwo_scale", "Verif.Ternary.ultMain_sound", "Verif.Ternary.sxUltimate_sound", "Verif.Ternary.sxUltimate_nonneg", "Verif.Ternary.twoX_assigned", "Verif.Ternary.sxUltimate_error", "Verif.Ternary.join_sound", "Verif.Ternary.sexticSolve_joined", "Verif.Ternary.ex_ultAxis", "Verif.Ternary.ex_ultTwo", "Verif.Ternary.ex_fullSdp", "Verif.Ternary.exUltR_sound", "Verif.Ternary.exUltR_roots", "Verif.Ternary.ex_ultTwo_scale"], "note": "The full claim is false because of the faults of C95, which the solver inherits (UpTo), and because of ultTwo_scale: with double roots at (0,1,1) and (4,1,1) or (1,1,1) the coefficient of a^6 is subtracted twice, so there is an answer only if it is one. Everything else is proved: all branches are identities, the method for all reals answers whenever its determinant is nonnegative at the vertex, the possibly unassigned variable is assigned. _sos_struct_sextic_symmetric_quadratic_form is a parameter with a contract that C97 discharges (sxUltimate_joined) except that it may return nan, which would be passed on; the quartic solver is discharged by the model of C49. sexticSolve_joined puts the solvers of C95 and C96 into the solver of C84."},
 {"property": "C97", "status": "partial", "theorems": ["Verif.Ternary.border_identity", "Verif.Ternary.border_fits", "Verif.Ternary.qSquare_sound", "Verif.Ternary.qTrivial_sound", "Verif.Ternary.qRegular_fits", "Verif.Ternary.sos2_identity", "Verif.Ternary.qSos2_fits", "Verif.Ternary.alt_identity", "Verif.Ternary.qAlternative_fits", "Verif.Ternary.remRegular_sound", "Verif.Ternary.remSos_identity", "Verif.Ternary.remSos_sound", "Verif.Ternary.mergeRem_sound", "Verif.Ternary.wrapLift_sound", "Verif.Ternary.wrapFlat_sound", "Verif.Ternary.axisF_border", "Verif.Ternary.bSol_identity", "Verif.Ternary.bDegen_sound", "Verif.Ternary.bWeights_spec", "Verif.Ternary.bCombine_sound", "Verif.Ternary.bRound_sound", "Verif.Ternary.qBorder_sound", "Verif.Ternary.qLoop_sound", "Verif.Ternary.qSolve_sound", "Verif.Ternary.axis_decompose", "Verif.Ternary.sxQuad_sound", "Verif.Ternary.sxQuad_nonneg", "Verif.Ternary.qSolve_third", "Verif.Ternary.regular_proves", "Verif.Ternary.qSolve_nan", "Verif.Ternary.sxQuad_nan", "Verif.Ternary.qSolve_one", "Verif.Ternary.exQuad_sound", "Verif.Ternary.quadFormOf_sound", "Verif.Ternary.sxUltimate_joined"], "note": "Every certificate the method returns is proved to be one, with contracts only on the univariate prover, on exact roots and on intervals. The full claim is false: sxQuad_nan gives a nonnegative sextic for which the answer is the symbol nan, and qSolve_one shows that for x=1 an exception loses the answer of an earlier attempt. quadFormOf_sound discharges the contract of this method in C96."},
 {"property": "C98", "status": "partial", "theorems": ["Verif.SymSOS.compN_value", "Verif.SymSOS.homWt_compN", "Verif.SymSOS.shifted_value", "Verif.SymSOS.foldExp_keys", "Verif.SymSOS.fold_value", "Verif.SymSOS.num_value", "Verif.SymSOS.divMins_value", "Verif.SymSOS.ker_value", "Verif.SymSOS.extractFactor_four", "Verif.SymSOS.sd4_eq", "Verif.SymSOS.rr4_eq", "Verif.SymSOS.fy_eq", "Verif.SymSOS.fJ_eq", "Verif.SymSOS.disc4_eq", "Verif.SymSOS.fz_fJ", "Verif.SymSOS.ker1_r", "Verif.SymSOS.ker2_r", "Verif.SymSOS.fx_r", "Verif.SymSOS.ker2_disc", "Verif.SymSOS.four_nonneg", "Verif.SymSOS.four_args", "Verif.SymSOS.den_identity", "Verif.SymSOS.transFour_value", "Verif.SymSOS.denominator_negative", "Verif.SymSOS.denominator_negative_three", "Verif.SymSOS.exDm4_ok", "Verif.SymSOS.exContent_ok"], "note": "Exactness is proved for every degree at every point where the discriminant, the product (a+b-c-d)(a+c-b-d)(a+d-b-c) and the sum of the variables are not zero; all other denominators are proved to be nonzero there. The signs are proved at every point. The documented sign of the denominator is false (denominator_negative, denominator_negative_three). Contracts: divmod, the content, and the form in elementary symmetric polynomials. For the zero polynomial the code divides by zero; the model gives no answer."},
 {"property": "C99", "status": "partial", "theorems": ["Verif.FindRoot.findBest_min", "Verif.FindRoot.findBest_max_default", "Verif.FindRoot.optDisc_sound", "Verif.FindRoot.optDisc_grid", "Verif.FindRoot.optDisc_soft", "Verif.FindRoot.odStart_corner", "Verif.FindRoot.odStart_not_best", "Verif.FindRoot.std_destd_simplex", "Verif.FindRoot.std_destd_part", "Verif.FindRoot.removeDup_spec", "Verif.FindRoot.removeDup_nodup", "Verif.FindRoot.clearRoots_mem", "Verif.FindRoot.clearRoots_nodup", "Verif.FindRoot.select_roots", "Verif.FindRoot.select_least", "Verif.FindRoot.select_strict", "Verif.FindRoot.normalRoots_iff", "Verif.FindRoot.normalRoots_select", "Verif.FindRoot.filterTangents_mem", "Verif.FindRoot.filterTangents_idem"], "note": "Proved for every list and every value, in exact arithmetic. False parts: find_best with objective 'max' and the default initial value ignores every ordinary choice (findBest_max_default); the method 'partial' moves every root whose last coordinate is not one (std_destd_part); normal_roots is wrong when a strict root is not among the roots (normalRoots_iff), which findroot never produces. Contracts: the numerical iterations and the rounding are arbitrary functions. Not modelled: the search on the border and on the axis, and the resultants."}
]}
