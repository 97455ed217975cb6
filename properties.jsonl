{"id": "C01", "title": "Monomial enumeration is complete, duplicate free and ordered", "statement": "generate_partitions(nvars, d) yields exactly the exponent tuples of length nvars whose entries are nonnegative and sum to at most d (exactly d with equal=True), each once, in strictly descending lexicographic order.", "quantifier": "every number of variables and every degree bound", "why_tests_cant": "The list grows without bound in both parameters; a test can only compare a handful of sizes against another enumeration.", "anchors": ["triples/utils/monomials.py:generate_partitions"]}
{"id": "C02", "title": "Symmetry-reduced monomial lists have exactly one representative per orbit", "statement": "For a permutation group G, MonomialManager(nvars, G).standard_monom(m) is in the G-orbit of m, is the same for all members of the orbit, is idempotent, and inv_monoms(d) lists each orbit of degree-d monomials exactly once with dict_monoms as its inverse.", "quantifier": "every group of permutations, every degree and every monomial", "why_tests_cant": "Groups and degrees are unbounded; orbit bookkeeping errors appear only for particular group/monomial combinations.", "anchors": ["triples/utils/monomials.py:MonomialManager"]}
{"id": "C03", "title": "Symmetric coefficient vectors round-trip", "statement": "For a homogeneous polynomial invariant under the group, invarraylize(arraylize(poly)) gives back the polynomial; for a vector of the right length arraylize(invarraylize(vec)) gives back the vector.", "quantifier": "every group, every degree, every invariant polynomial and every vector", "why_tests_cant": "Requires quantifying over all coefficient vectors and groups; the zero polynomial and inhomogeneous inputs behave differently.", "anchors": ["triples/utils/monomials.py:MonomialManager.arraylize", "triples/utils/monomials.py:MonomialManager.invarraylize"]}
{"id": "C04", "title": "expand_cyc accumulates the coefficients of the full cyclic sum", "statement": "arraylize(poly, expand_cyc=True) is the coefficient vector (read at orbit representatives) of the sum over all g in G of poly permuted by g.", "quantifier": "every group, every polynomial", "why_tests_cant": "The sum over the group with overlapping orbits multiplies coefficients by stabiliser sizes; only an algebraic proof covers every stabiliser pattern.", "anchors": ["triples/utils/monomials.py:MonomialManager.arraylize"]}
{"id": "C05", "title": "congruence returns a genuine LDL decomposition with nonnegative weights", "statement": "Whenever congruence(M) returns (U, S) for a symmetric matrix M then M = U^T diag(S) U, U is upper triangular, and all S[i] >= 0.", "quantifier": "every symmetric matrix of every size over an ordered field", "why_tests_cant": "Pivot patterns (zero pivots in arbitrary places) and sizes are unbounded.", "anchors": ["triples/sdp/utils.py:congruence"]}
{"id": "C06", "title": "congruence returns None exactly for matrices that are not positive semidefinite", "statement": "For a nonempty symmetric M, congruence(M) is None if and only if some vector x has x^T M x < 0.", "quantifier": "every symmetric matrix of every size over an ordered field", "why_tests_cant": "Completeness is a statement about all vectors x for all matrices.", "anchors": ["triples/sdp/utils.py:congruence"]}
{"id": "C07", "title": "quadratic_weighting writes a nonnegative binary form as weighted squares or reports failure correctly", "statement": "quadratic_weighting(c1,c2,c3) returns weights w_i >= 0 and pairs (x_i,y_i) with sum w_i (x_i a + y_i b)^2 = c1 a^2 + c2 a b + c3 b^2 for all a, b; it returns None exactly when the form takes a negative value.", "quantifier": "every triple of coefficients and every evaluation point", "why_tests_cant": "Quantifies over a continuum of coefficients, and the None answer is a statement about all points.", "anchors": ["triples/core/structsos/utils.py:quadratic_weighting"]}
{"id": "C08", "title": "Checking group generators decides invariance under the whole group", "statement": "Coeff.is_cyclic(G)/is_symmetric() returns True if and only if the polynomial is unchanged by every permutation in the group generated by the listed generators.", "quantifier": "every polynomial, every list of generators, every group element", "why_tests_cant": "The code inspects only generators; the guarantee is about all elements of an arbitrarily large group.", "anchors": ["triples/utils/expression/coeff.py:Coeff.is_cyclic", "triples/utils/expression/coeff.py:Coeff.is_symmetric"]}
{"id": "C09", "title": "cancel_abc and cancel_k factor the polynomial exactly", "statement": "cancel_abc returns exponents e and a polynomial q with p = x^e q and no variable dividing q; cancel_k returns d and q with p(x) = q(x^d) and the exponents of q coprime.", "quantifier": "every polynomial with nonzero coefficients", "why_tests_cant": "Exponents and number of terms are unbounded; both algorithms have early-exit paths.", "anchors": ["triples/utils/expression/coeff.py:Coeff.cancel_abc", "triples/utils/expression/coeff.py:Coeff.cancel_k"]}
{"id": "C10", "title": "Coeff addition and subtraction are coefficientwise", "statement": "(A+B)(m) = A(m)+B(m) and (A-B)(m) = A(m)-B(m) for every exponent tuple m, and no zero coefficient is introduced.", "quantifier": "all pairs of sparse polynomials and all monomials", "why_tests_cant": "Cancellation patterns between two arbitrary dictionaries cannot be enumerated.", "anchors": ["triples/utils/expression/coeff.py:Coeff.__operator__"]}
{"id": "C11", "title": "sum_of_squares returns the first successful method in the requested order", "statement": "sum_of_squares returns the solution of the first method in method_order that gives one, calls no later method, returns None if all fail, and an exception or unknown name at a reached position escapes.", "quantifier": "every list of method names and every behaviour of the methods", "why_tests_cant": "Behaviours of the four solvers are arbitrary; orders may repeat or contain unknown names.", "anchors": ["triples/core/sum_of_squares.py:sum_of_squares"]}
{"id": "C12", "title": "sum_of_squares_multiple yields one record per input, in order, with a status matching what happened", "statement": "The batch API reports exactly one record per input problem in input order, and the status (invalid, fail, inaccurate, success, error) is determined by the parse result, the solver result and its equality flag.", "quantifier": "every list of inputs and every solver behaviour", "why_tests_cant": "Batch length and failure pattern are unbounded.", "anchors": ["triples/core/sum_of_squares.py:sum_of_squares_multiple"]}
{"id": "C13", "title": "Extraction of nonnegative expressions is sound", "statement": "If the structural post-processing accepts an expression, then replacing the marked symbols by nonnegative values gives a nonnegative number, and with the markers read as the identity the value equals that of the original expression.", "quantifier": "every expression tree (sums, products, powers, cyclic sums and products) and every real assignment", "why_tests_cant": "Induction over arbitrary expression trees; tests only sample trees and points.", "anchors": ["triples/core/structsos/solution.py:SolutionStructural._extract_nonnegative_exprs"]}
{"id": "C14", "title": "A monomial returned by StructuralSOS is nonnegative under the stated constraints", "statement": "When StructuralSOS answers a monomial problem with the monomial itself, that monomial is nonnegative at every point satisfying the constraints.", "quantifier": "every monomial, every constraint set and every feasible point", "why_tests_cant": "Feasible points form a continuum.", "anchors": ["triples/core/structsos/structsos.py:_structural_sos"]}
{"id": "C15", "title": "The four-variable partially symmetric cubic solver returns an expression equal to the input", "statement": "Whenever the solver for 4-variable cubics invariant under rotating a,b,c returns an expression it equals the polynomial wherever a+b+c is nonzero and all weights are nonnegative.", "quantifier": "every admitted coefficient assignment and every point", "why_tests_cant": "Six free coefficients range over a field; missing a coefficient is visible only for inputs where it is nonzero.", "anchors": ["triples/core/structsos/quarternary/cubic.py:_quarternary_cubic_partial_symmetric", "triples/core/structsos/quarternary/solver.py:structural_sos_4vars"]}
{"id": "C16", "title": "The n-variable quadratic solver returns an equal sum of squares and is complete", "statement": "sos_struct_quadratic returns an expression equal to the input polynomial with nonnegative weights, and for polynomials of total degree at most two it returns None only if the polynomial takes a negative value somewhere.", "quantifier": "every number of variables and every quadratic polynomial", "why_tests_cant": "Number of variables and coefficients are unbounded.", "anchors": ["triples/core/structsos/sparse.py:sos_struct_quadratic"]}
{"id": "C17", "title": "The linear solver accepts exactly the linear polynomials nonnegative on the orthant", "statement": "sos_struct_linear returns an expression equal to the polynomial with nonnegative coefficients, and returns None exactly if a coefficient is negative.", "quantifier": "every number of variables and every linear form", "why_tests_cant": "Unbounded dimension.", "anchors": ["triples/core/structsos/sparse.py:sos_struct_linear"]}
{"id": "C18", "title": "Merging proofs of univariate factors preserves the value", "statement": "When each factor is proved as P(x) + x Q(x) with P and Q weighted sums of squares, the merged proof equals the product of the factors and all weights stay nonnegative.", "quantifier": "every number of factors, every factor proof and every point", "why_tests_cant": "The number of factors and squares is unbounded.", "anchors": ["triples/core/structsos/pivoting/univariate.py:prove_univariate"]}
{"id": "C19", "title": "Interval proofs transfer back to the original polynomial", "statement": "prove_univariate_interval on [a,b], [a,oo) or (-oo,b] returns a combination of squares with multipliers 1, x-a, b-x, (x-a)(b-x) whose value equals the polynomial and which is nonnegative on the interval.", "quantifier": "every polynomial, every interval, every point", "why_tests_cant": "A Moebius change of variable for arbitrary degree has to be inverted exactly.", "anchors": ["triples/core/structsos/pivoting/univariate.py:prove_univariate_interval"]}
{"id": "C20", "title": "The univariate Gram matrix represents the polynomial", "statement": "The matrix filled by the univariate solver satisfies v^T M v = f(x) for v = (x^n,...,x,1), whatever values are chosen for the free entries.", "quantifier": "every degree, every coefficient list, every choice of free entries", "why_tests_cant": "Unbounded degree.", "anchors": ["triples/core/structsos/pivoting/univariate.py:_determine_diagonal_entries"]}
{"id": "C21", "title": "Planar half-space intersection keeps the feasible region", "statement": "After adding any sequence of half planes through the origin, the at most two stored normals describe a region containing every point that satisfies all of the added constraints, and when the stored normals are not antiparallel the region is exactly the intersection.", "quantifier": "every sequence of normals and every point", "why_tests_cant": "Histories of additions are unbounded and degenerate directions interact.", "anchors": ["triples/core/structsos/pivoting/bivariate.py:HalfspaceIntersection2D"]}
{"id": "C22", "title": "Linear systems are solved exactly and completely", "statement": "solve_undetermined_linear(A,b) raises ValueError exactly when A x = b has no solution; otherwise {x0 + space y} is exactly the solution set.", "quantifier": "every matrix and right-hand side over a field", "why_tests_cant": "Both inclusions quantify over all vectors and all pivot patterns.", "anchors": ["triples/sdp/arithmetic.py:solve_undetermined_linear", "triples/sdp/arithmetic.py:_rref", "triples/sdp/arithmetic.py:_row_reduce_dict"]}
{"id": "C23", "title": "solve_nullspace spans exactly the kernel", "statement": "The columns returned by solve_nullspace(A) are linearly independent and span {x : A^T x = 0} (for A of shape m x n the result has m rows, as documented).", "quantifier": "every matrix over a field", "why_tests_cant": "Spanning is a statement about all kernel vectors.", "anchors": ["triples/sdp/arithmetic.py:solve_nullspace"]}
{"id": "C24", "title": "Column-separated systems are solved soundly", "statement": "solve_column_separated_linear(A,b) for matrices with at most one nonzero per column returns x0 and a space such that every x0 + space y solves A x = b, and an inconsistent system is rejected.", "quantifier": "every column-separated system", "why_tests_cant": "Zero rows, zero columns and equal-entry groups interact in ways no finite sample exhausts.", "anchors": ["triples/sdp/arithmetic.py:solve_column_separated_linear"]}
{"id": "C25", "title": "Masking rows with zero diagonal loses no solution", "statement": "If every feasible S has S[i,i] = 0 then restricting a PSD problem to the other rows keeps exactly the feasible points.", "quantifier": "every matrix size, every feasible matrix", "why_tests_cant": "It is a statement about all PSD matrices.", "anchors": ["triples/sdp/transform.py:DualRowMasking", "triples/sdp/transform.py:SDPRowMasking"]}
{"id": "C26", "title": "Matrix transforms preserve feasibility in both directions", "statement": "Replacing S by U M U^T with U a basis of the allowed range gives S PSD iff M PSD, and every constraint expressed for the parent (including further nullspaces) corresponds to an equivalent one for the child.", "quantifier": "every basis matrix and every PSD matrix", "why_tests_cant": "Quantifies over all matrices; orthogonality of the basis makes wrong formulas pass on simple samples.", "anchors": ["triples/sdp/transform.py:DualMatrixTransform"]}
{"id": "C27", "title": "Affine reparametrisation keeps the matrix pencil", "statement": "After the vector transform y = A z + b the child's matrices S(z) are identical to the parent's S(A z + b).", "quantifier": "every pencil and every affine map", "why_tests_cant": "All z.", "anchors": ["triples/sdp/transform.py:SDPVectorTransform", "triples/sdp/transform.py:DualDeparametrization"]}
{"id": "C28", "title": "Vectorised symmetric matrices round-trip", "statement": "Mat2Vec conversion from matrix to vector and back is the identity on symmetric matrices, lengths are n(n+1)/2 or n^2, and split/merge of blocks is inverse.", "quantifier": "every size and every symmetric matrix", "why_tests_cant": "Index arithmetic for every n.", "anchors": ["triples/sdp/utils.py:Mat2Vec"]}
{"id": "C29", "title": "Degree combinations list each solution once", "statement": "The linear-basis generator lists every exponent vector x with sum x_i d_i = degree (or <= degree) exactly once.", "quantifier": "every list of positive degrees and every bound", "why_tests_cant": "Unbounded integer search; the single-element list takes a different path.", "anchors": ["triples/core/linsos/basis.py:_degree_combinations"]}
{"id": "C30", "title": "A LinearSOS certificate is a true identity with nonnegative weights", "statement": "If the exact check accepts weights y then the (multiplied) polynomial equals the weighted sum of the basis polynomials, and in the verified branch all weights are nonnegative.", "quantifier": "every basis, every weight vector", "why_tests_cant": "Identity of polynomials of arbitrary degree and arbitrarily many terms.", "anchors": ["triples/core/linsos/correction.py:linear_correction", "triples/core/linsos/correction.py:_is_Ax_equal_to_b"]}
{"id": "C31", "title": "The fast coefficient matrix equals the naive cyclic expansion", "statement": "The row computed for x^m prod (x_i-x_j)^(2k) by the fast encoder equals the arraylize(expand_cyc) row of the same expression.", "quantifier": "every exponent vector and group", "why_tests_cant": "Encoded integer arithmetic with overflow limits; all degrees.", "anchors": ["triples/core/linsos/basis.py:_get_matrix_of_quad_diff", "triples/core/linsos/basis.py:_compute_sym_multiplicity"]}
{"id": "C32", "title": "A Gram matrix solution gives an SOS identity", "statement": "If the linear equations of the SDP hold for the Gram matrices then the polynomial equals the sum over the group of sum_k S_k * ineq * (U_k . monomials)^2 plus the equality multipliers.", "quantifier": "every monomial basis, every Gram matrix, every group", "why_tests_cant": "Arbitrary size Gram matrices.", "anchors": ["triples/core/sdpsos/sdpsos.py:_form_sdp", "triples/core/sdpsos/solution.py:_decomp_as_sos"]}
{"id": "C33", "title": "Every preordering option of SDPSOS is usable", "statement": "SDPSOS with preordering 'none', 'linear', 'linear-progressive' forms the quadratic-module list that contains 1 and the stated products of constraints; unknown names raise ValueError.", "quantifier": "every constraint dictionary and option", "why_tests_cant": "Constraint sets are unbounded.", "anchors": ["triples/core/sdpsos/sdpsos.py:_get_qmodule_list", "triples/core/linsos/linsos.py:_get_qmodule_list"]}
{"id": "C34", "title": "Normalised constraints are equivalent to the user's constraints", "statement": "Replacing an inequality by its odd square-free part and an equality by its square-free part does not change the feasible set used in the proof.", "quantifier": "every factorised constraint and every point", "why_tests_cant": "Statement about all points, in particular the zeros of the dropped factors.", "anchors": ["triples/core/shared.py:_std_ineq_constraints", "triples/core/shared.py:_std_eq_constraints"]}
{"id": "C35", "title": "Homogenisation and dehomogenisation are inverse and preserve proofs", "statement": "Homogenising with a new variable t and substituting t = 1 gives back the polynomial; an identity proved for the homogeneous problem gives one for the original.", "quantifier": "every polynomial and every point", "why_tests_cant": "All degrees and numbers of variables.", "anchors": ["triples/core/shared.py:homogenize", "triples/utils/expression/solution.py:SolutionSimple.dehomogenize"]}
{"id": "C36", "title": "The inferred symmetry group preserves the problem", "statement": "Every permutation in the group returned by identify_symmetry_from_lists maps each constraint list to itself and fixes the objective.", "quantifier": "every problem and group element", "why_tests_cant": "The code tests only generators and representatives; the claim is for the whole group.", "anchors": ["triples/core/shared.py:identify_symmetry_from_lists", "triples/utils/expression/coeff.py:identify_symmetry"]}
{"id": "C37", "title": "clear_polys_by_symmetry keeps exactly one polynomial per orbit", "statement": "The output contains a member of the orbit of every input polynomial, and no two kept polynomials lie in the same orbit.", "quantifier": "every list and every group", "why_tests_cant": "Unbounded lists.", "anchors": ["triples/core/shared.py:clear_polys_by_symmetry"]}
{"id": "C38", "title": "Constraint wrapping is restored exactly", "statement": "The constraint placeholders introduced before solving are replaced by exactly the user's expressions; an asymmetric constraint set raises ValueError.", "quantifier": "every symmetric constraint dictionary", "why_tests_cant": "Every group element permutes placeholders simultaneously.", "anchors": ["triples/core/shared.py:_get_constraints_wrapper"]}
{"id": "C39", "title": "Cyclic sums and products simplify without changing their value", "statement": "Constructing CyclicSum/CyclicProduct (pulling out invariant factors, distributing constants, choosing a canonical representative) yields an expression with the same expanded value.", "quantifier": "every base expression, symbol tuple and permutation group", "why_tests_cant": "Requires the group order, stabilisers and all substitutions.", "anchors": ["triples/utils/expression/cyclic.py:CyclicSum", "triples/utils/expression/cyclic.py:CyclicProduct", "triples/utils/expression/cyclic.py:CyclicExpr.__new__"]}
{"id": "C40", "title": "Substituting symbols commutes with expanding a cyclic expression", "statement": "expr.xreplace(rule).doit() equals expr.doit().xreplace(rule) for cyclic expressions.", "quantifier": "every rule, expression and group", "why_tests_cant": "Depends on how the rule interacts with the group's orbits.", "anchors": ["triples/utils/expression/cyclic.py:CyclicExpr._xreplace"]}
{"id": "C41", "title": "is_equal certifies an identity", "statement": "SolutionSimple.is_equal computed as True implies problem * multiplier = numerator, and as_fraction preserves numerator/multiplier as the value of the solution.", "quantifier": "every solution expression", "why_tests_cant": "Identity at all points.", "anchors": ["triples/utils/expression/solution.py:SolutionSimple.is_equal", "triples/utils/expression/solution.py:SolutionSimple.as_fraction"]}
{"id": "C42", "title": "Printed exponents denote the exponents of the expression", "statement": "The text rendering of a power shows exactly its decimal exponent.", "quantifier": "every exponent", "why_tests_cant": "Multi-digit exponents are unbounded.", "anchors": ["triples/utils/expression/solution.py:SolutionSimple.str_txt", "triples/utils/expression/solution.py:SolutionSimple.to_string"]}
{"id": "C43", "title": "Multi-line rendering keeps every term exactly once", "statement": "The multi-line equation printer emits each summand exactly once, whatever the line-length heuristics decide.", "quantifier": "every list of terms and line length", "why_tests_cant": "Greedy line breaking depends on all prefix lengths.", "anchors": ["triples/utils/expression/solution.py:_multiline_equation_latex"]}
{"id": "C44", "title": "Implicit multiplication and power completion only inserts operators", "statement": "Completing '2a2b' style input inserts only '*' and '^' and never reorders, drops or duplicates other characters; completing twice changes nothing more.", "quantifier": "every input string", "why_tests_cant": "Strings are unbounded.", "anchors": ["triples/utils/text_process.py:_preprocess_text_completion"]}
{"id": "C45", "title": "Cyclic expansion of text substitutes simultaneously", "statement": "cycle_expansion(s, symbol) joins the images of s under all rotations (or permutations) of the variables, each letter replaced simultaneously.", "quantifier": "every string", "why_tests_cant": "Sequential replacement bugs only show on particular letter patterns.", "anchors": ["triples/utils/text_process.py:cycle_expansion"]}
{"id": "C46", "title": "coefficient_triangle lists the coefficients in triangle order", "statement": "The coefficient list of a homogeneous ternary polynomial of degree d has length (d+1)(d+2)/2 and entry i(i+1)/2+j is the coefficient of a^(d-i) b^(i-j) c^j.", "quantifier": "every degree and every polynomial", "why_tests_cant": "All degrees.", "anchors": ["triples/utils/text_process.py:coefficient_triangle"]}
{"id": "C47", "title": "Ternary cyclic quartic solvers return identities with nonnegative weights", "statement": "The cyclic quartic core, degenerate, real and biased solvers return expressions equal to the input quartic whose weights are nonnegative.", "quantifier": "every cyclic quartic and every point", "why_tests_cant": "Five real coefficients plus auxiliary rational parameters.", "anchors": ["triples/core/structsos/ternary/quartic.py"]}
{"id": "C48", "title": "Ternary cubic solvers return identities with nonnegative weights", "statement": "The symmetric, degenerate and parabola cubic solvers return expressions equal to the input on the nonnegative orthant with nonnegative weights.", "quantifier": "every cyclic cubic and every point", "why_tests_cant": "Real coefficients.", "anchors": ["triples/core/structsos/ternary/cubic.py"]}
{"id": "C49", "title": "Special AM-GM and Schur tables are correct identities", "statement": "Every tabulated special expression equals the difference it is used for.", "quantifier": "every point", "why_tests_cant": "Identities at all real points.", "anchors": ["triples/core/structsos/ternary/utils.py:CommonExpr", "triples/core/structsos/ternary/sparse.py:Pnrms", "triples/core/structsos/ternary/sparse.py:Hnmr"]}
{"id": "C50", "title": "The generic two-term AM-GM kernel is an identity and nonnegative", "statement": "u x^(u+v) - (u+v) x^u + v is nonnegative for x >= 0 (for all x if u+v is even) and the factored form produced equals it.", "quantifier": "every pair of positive integers and every x", "why_tests_cant": "All exponents and all reals.", "anchors": ["triples/core/structsos/ternary/sparse.py:AMGM3.local_ineq"]}
{"id": "C51", "title": "Acute-triangle solvers return identities", "statement": "The solvers for b^2+c^2-a^2 >= 0 constraints return expressions equal to the input polynomial.", "quantifier": "every admitted symmetric polynomial and every point", "why_tests_cant": "Coefficient families.", "anchors": ["triples/core/structsos/constrained/acute.py"]}
{"id": "C52", "title": "SymmetricSOS changes of variables are exact", "statement": "The 'real' and 'positive' symmetric substitutions recover p, q, r: the transformed numerator over the denominator equals the input polynomial wherever the denominators are nonzero, and the new variables declared nonnegative are nonnegative.", "quantifier": "every symmetric polynomial and every point", "why_tests_cant": "Rational identities in three variables for arbitrary degree.", "anchors": ["triples/core/symsos/symmetric.py"]}
{"id": "C53", "title": "Pivoting proofs are sound", "statement": "Whenever prove_by_pivoting returns an expression, it equals the polynomial and is nonnegative for all real values of the variables with the declared ones nonnegative.", "quantifier": "every polynomial, every set of nonnegative symbols and every point", "why_tests_cant": "Recursive procedure over arbitrarily many variables.", "anchors": ["triples/core/symsos/basic.py:prove_by_pivoting"]}
{"id": "C54", "title": "Solver backend encodings preserve the constraint set", "statement": "Every linear constraint handed to a numerical backend (<=, >=, ==, strict forms) is encoded so that the accepted vectors are exactly those satisfying the (non-strict) constraint; the eigenvalue shift is undone exactly.", "quantifier": "every constraint and vector", "why_tests_cant": "All vectors.", "anchors": ["triples/sdp/backend/backend.py"]}
{"id": "C55", "title": "Exact integer matrix products never overflow silently", "statement": "The guard choosing machine-integer multiplication is taken only if no intermediate value leaves the 64-bit range.", "quantifier": "every pair of integer matrices", "why_tests_cant": "Boundary values.", "anchors": ["triples/sdp/arithmetic.py:matmul"]}
{"id": "C56", "title": "Factor extraction keeps a structural solver correct", "statement": "If every base solver returns only expressions equal to its polynomial and nonnegative on the orthant (or everywhere, when asked for real), then the wrapper that first removes monomial factors and common exponents returns an expression equal to the original polynomial and nonnegative on the orthant, and a chain of solvers returns only what one of them returned.", "quantifier": "every list of base solvers, every nonzero polynomial, every point", "why_tests_cant": "ranges over all polynomials and all solver behaviours including the caught exceptions", "anchors": ["triples/core/structsos/sparse.py:sos_struct_extract_factors", "triples/core/structsos/sparse.py:sos_struct_common"]}
{"id": "C57", "title": "Four-variable symmetric cubic and cyclic quartic solvers return identities", "statement": "When the solver of symmetric four-variable cubics or of cyclic four-variable quartics returns an expression, that expression equals the polynomial at every point where its denominators do not vanish, and it is nonnegative on the nonnegative orthant (for the quartic wherever abcd >= 0), no matter which candidate values the root isolation offers.", "quantifier": "every homogeneous polynomial of that shape over an ordered field, every list of candidate parameters, every point", "why_tests_cant": "quantifies over all coefficients and all behaviours of the root finder", "anchors": ["triples/core/structsos/quarternary/cubic.py:_quarternary_cubic_symmetric", "triples/core/structsos/quarternary/quartic.py:_quarternary_quartic_real", "triples/core/structsos/quarternary/quartic.py:_quarternary_quartic_fluroite"]}
{"id": "C58", "title": "The univariate prover proves the polynomial it was given", "statement": "When prove_univariate returns an expression, its value equals the polynomial at every point and it is nonnegative for x >= 0 (everywhere if no multiplier x is used), for every behaviour of the numerical root finder and of the rounding.", "quantifier": "every polynomial given by its factorisation, every numerical matrix offered, every point", "why_tests_cant": "the numerical part is not deterministic across precision settings and the number of factors is unbounded", "anchors": ["triples/core/structsos/pivoting/univariate.py:prove_univariate", "triples/core/structsos/pivoting/univariate.py:_prove_univariate_irreducible"]}
{"id": "C59", "title": "Bivariate homogeneous solver returns correct certificates", "statement": "If structural_sos_2vars(poly, ineq_constraints, eq_constraints) returns an expression for a homogeneous polynomial in two variables, then replacing each attached constraint expression by the value of its linear constraint the expression equals the polynomial at every point (with b nonzero when there is no linear constraint), and the polynomial is nonnegative wherever the linear constraints hold.", "quantifier": "every factorisation, every list of linear and nonlinear constraints, every point", "why_tests_cant": "The substitution, rehomogenisation and parity of the degree interact with every possible cone; only an identity in all variables settles it.", "anchors": ["triples/core/structsos/pivoting/bivariate.py:structural_sos_2vars", "triples/core/structsos/pivoting/bivariate.py:_sos_struct_bivariate_linear_ineq"]}
{"id": "C60", "title": "Linear systems with equal entries are solved exactly", "statement": "solve_csr_linear(A,b,groups), when some column of A has two nonzero entries, raises ValueError exactly when A x = b has no solution whose entries agree on every group; otherwise {x0 + space y} is exactly the set of such solutions.", "quantifier": "every matrix, right-hand side and family of nonempty disjoint index groups", "why_tests_cant": "Spanning and consistency quantify over all vectors; groups change which systems are solvable.", "anchors": ["triples/sdp/arithmetic.py:solve_csr_linear"]}
{"id": "C61", "title": "Transformations of primal SDP problems keep the feasible set", "statement": "Constraining null spaces of a primal problem gives exactly the feasible matrices with X_k N_k = 0; symmetrising the equations does not change the feasible set; the zero diagonals that are found vanish at every feasible point; masking rows gives a problem whose feasible points, padded by zeros, are exactly the feasible points of the parent, and padded decompositions still multiply to the padded matrix.", "quantifier": "all primal problems (any number and sizes of blocks, any equations), all null spaces, all masks, all feasible matrices", "why_tests_cant": "the feasible set is infinite and the loss of a feasible point is invisible on problems where the numerical solver happens to succeed", "anchors": ["triples/sdp/transform.py: PrimalNullspace, PrimalRowMask, PrimalSymmetric", "triples/sdp/primal.py: SDPPrimal"]}
{"id": "C62", "title": "Primal to dual conversion keeps the feasible set", "statement": "Converting a primal problem (trace equations on matrices) to dual form gives a problem whose matrices at feasible parameters are exactly the feasible matrices of the primal problem; if the conversion raises, the primal problem has no feasible point.", "quantifier": "all primal problems and all symmetric matrices", "why_tests_cant": "the set of matrices is infinite and equality of affine families cannot be sampled", "anchors": ["triples/sdp/transform.py", "triples/sdp/primal.py: SDPPrimal", "triples/sdp/dual.py: SDPProblem.from_equations"]}
{"id": "C63", "title": "Rationalising a float stays within the tolerance", "statement": "Rationalising a finite float by the cut continued fraction returns a rational number within 1e-6 of it, keeps nonnegative numbers nonnegative, and the array version changes no entry by more than the tolerance it is given (relative to the largest entry) plus that bound.", "quantifier": "every finite float value (a rational number), every array", "why_tests_cant": "The cut position depends on the whole continued fraction expansion, whose length and entries are unbounded.", "anchors": ["triples/utils/roots/rationalize.py:rationalize", "triples/utils/roots/rationalize.py:rationalize_array"]}
{"id": "C64", "title": "LaTeX conversion keeps parentheses balanced", "statement": "Converting a LaTeX formula to plain text succeeds whenever no prefix closes more parentheses or braces than it opened, and every parenthesis the conversion adds for \\sum and \\prod is closed again.", "quantifier": "every input string", "why_tests_cant": "Strings and nesting are unbounded; the number of open sums depends on the whole prefix.", "anchors": ["triples/utils/text_process.py:_preprocess_text_delatex"]}
{"id": "C65", "title": "PolyReader delivers every line once, in order", "statement": "Iterating a PolyReader with ignore_errors delivers exactly one result per line, in order, and then stops; without it the reader reports a malformed line and does not silently skip it.", "quantifier": "every list of lines and any number of calls of next", "why_tests_cant": "Histories of calls are unbounded.", "anchors": ["triples/utils/text_process.py:PolyReader"]}
{"id": "C66", "title": "Acyclic ternary quadratics are solved exactly when copositive", "statement": "For every quadratic form in three variables the structural solver returns an expression if and only if the form is nonnegative on the octant, and a returned expression equals the form and is visibly nonnegative there; it never raises.", "quantifier": "every quadratic form in three variables with coefficients in an ordered field", "why_tests_cant": "The set of copositive forms is a continuum with curved boundary; tests check a few forms.", "anchors": ["triples/core/structsos/ternary/quadratic.py:sos_struct_acyclic_quadratic"]}
{"id": "C67", "title": "Acyclic ternary cubics: every answer is a certificate", "statement": "Whenever the structural solver for acyclic ternary cubics returns an expression it equals the input, all weights are nonnegative, and the input is nonnegative on the octant; an input with nonnegative coefficients does not make the solver raise.", "quantifier": "every cubic form in three variables and every outcome of the rational approximation", "why_tests_cant": "The weights are chosen by approximating irrational roots; tests see one choice for a few inputs.", "anchors": ["triples/core/structsos/ternary/cubic.py:sos_struct_acyclic_cubic"]}
{"id": "C68", "title": "Sparse cyclic inequalities with two classes of monomials: every answer is a certificate", "statement": "Whenever the AM-GM solver for c1*s(m1)+c2*s(m2), or the solver for sparse cyclic ternary polynomials built on it, returns an expression, that expression equals the input at every positive point and is nonnegative there; the solver does not raise on two monomials of one degree.", "quantifier": "every pair of coefficients, every pair of monomials of one degree, every cyclic homogeneous ternary polynomial, every positive point", "why_tests_cant": "The answer is assembled by four geometric searches whose branches depend on the exponents; tests see a few exponents.", "anchors": ["triples/core/structsos/ternary/sparse.py:AMGM3", "triples/core/structsos/ternary/sparse.py:CoeffMonom", "triples/core/structsos/ternary/sparse.py:_sos_struct_sparse_amgm"]}
{"id": "C69", "title": "The heuristic solver for sparse cyclic polynomials returns correct certificates", "statement": "If the solvers it calls are sound, whatever the heuristic solver returns for a cyclic homogeneous polynomial in three variables equals that polynomial at every positive point and is nonnegative there; it raises no exception.", "quantifier": "every cyclic ternary form, every sound family of sub-solvers, every positive point", "why_tests_cant": "Exponents and coefficients are unbounded and the answer combines results of arbitrary sub-solvers.", "anchors": ["triples/core/structsos/ternary/sparse.py:sos_struct_heuristic", "triples/core/structsos/ternary/sparse.py:Pnrms", "triples/core/structsos/ternary/sparse.py:Hnmr"]}
{"id": "C70", "title": "Rewriting a solution over another permutation group keeps its value", "statement": "rewrite_symmetry(expr, symbols, perm_group), and Solution.rewrite_symmetry which calls it, return an expression with the value of expr at every point where expr is defined.", "quantifier": "every expression, symbol tuple and target group", "why_tests_cant": "The rewriting depends on subgroup relations and on coset representatives; a missing or doubled coset is visible only for particular pairs of groups.", "anchors": ["triples/utils/expression/cyclic.py:rewrite_symmetry", "triples/utils/expression/cyclic.py:_get_rewriting_replacement"]}
{"id": "C71", "title": "Answers of the solver of dense symmetric polynomials are proofs, and the solver always ends", "statement": "For a homogeneous symmetric polynomial in three variables, an answer of sos_struct_dense_symmetric equals the polynomial wherever its denominator is not zero, and has nonnegative weights and a nonnegative denominator for a, b, c >= 0. The division by ((a-b)(b-c)(c-a))^2 whose remainder the code ignores is always exact, the recursion always ends, and no missing key, missing return value or failed subtraction occurs on the way.", "quantifier": "every symmetric homogeneous polynomial, every behaviour of the univariate prover and of the low degree solver that meets their contracts", "why_tests_cant": "The recursion depth grows with the degree, the exactness of the ignored remainder is a statement about all symmetric polynomials that vanish on the axis, and the branches on parity of n, m have no bound.", "anchors": ["triples/core/structsos/ternary/dense_symmetric.py:sos_struct_dense_symmetric", "triples/core/structsos/ternary/dense_symmetric.py:_sos_struct_lift_for_six", "triples/core/structsos/ternary/dense_symmetric.py:sos_struct_liftfree_for_six", "triples/core/structsos/ternary/utils.py:sos_struct_handle_uncentered"]}
{"id": "C72", "title": "Answers for symmetric quartics in any number of variables are proofs", "statement": "For a homogeneous symmetric polynomial of degree four in n >= 4 variables, an answer of sos_struct_nvars_quartic_symmetric equals the polynomial and is nonnegative at every real point, whatever point the search in the plane returned. No exception is raised. A point that meets the listed inequalities and has q1, q3 >= 0 always leads to an answer.", "quantifier": "every n >= 4, every symmetric quartic, every outcome of the search", "why_tests_cant": "The number of variables is unbounded and the sums run over n! permutations; a wrong factorial or a wrong n-dependence only shows for some n.", "anchors": ["triples/core/structsos/nvars.py:sos_struct_nvars_quartic_symmetric", "triples/core/structsos/nvars.py:_sos_struct_nvars_quartic_symmetric_sdp"]}
{"id": "C73", "title": "Removing unrelated variables and constraints keeps the problem", "statement": "clear_free_symbols keeps exactly the variables linked to the polynomial by a chain of shared variables, and exactly the constraints that mention one of them. Each kept polynomial takes the same values as before. A proof of the reduced problem is a proof of the original one, and if the removed constraints are consistent the reduced problem is true whenever the original one is. The result does not depend on the iteration order of the symbol sets.", "quantifier": "every polynomial that is not a constant, every list of constraints, every number of variables and every iteration order of sets", "why_tests_cant": "The union-find structure depends on the order of sets and on all chains of constraints; tests fix a few systems and one order.", "anchors": ["triples/core/structsos/utils.py:clear_free_symbols"]}
{"id": "C74", "title": "The tests for homogeneous, cyclic and symmetric polynomials are exact", "statement": "verify_hom_cyclic never raises on a polynomial in three variables. Its first answer is True exactly when all terms have the same degree and its second exactly when, in addition, the polynomial is unchanged by a->b->c->a. The fast and the slow algorithm agree. For a cyclic polynomial verify_is_symmetric is True exactly when it is unchanged by every permutation of the variables.", "quantifier": "every polynomial in three variables, of every degree", "why_tests_cant": "The check walks over flat indices computed from the degree; an off-by-one only shows for some degree and some monomial.", "anchors": ["triples/utils/polytools.py:verify_hom_cyclic", "triples/utils/polytools.py:verify_is_symmetric"]}
{"id": "C75", "title": "p,q,r forms are identities and exist exactly for symmetric and cyclic polynomials", "statement": "pqr_sym(P) returns f with P = f(e_1,...,e_n), and raises ValueError exactly when P is not symmetric or the number of symbols is wrong. pqr_cyc(P) returns (f,g) with P = f(p,q,r) + (a-b)(b-c)(c-a) g(p,q,r), and raises ValueError exactly when P is not cyclic; the parts are determined by P. pqr_ker is the p,q,r form of ((a-b)(b-c)(c-a))^2.", "quantifier": "every polynomial, every number of variables (pqr_sym) or three variables (pqr_cyc), over every infinite field where 2 is not zero", "why_tests_cant": "That the division by (a-b)(b-c)(c-a) is always exact and the quotient symmetric is a theorem about all cyclic polynomials; tests sample a few.", "anchors": ["triples/utils/expression/pqr.py:pqr_sym", "triples/utils/expression/pqr.py:pqr_cyc", "triples/utils/expression/pqr.py:pqr_ker"]}
{"id": "C76", "title": "An answer of the ternary septic solver is a certificate", "statement": "For a cyclic polynomial of degree seven in three variables, whatever sos_struct_septic returns is an identity for the polynomial whose denominator is positive for positive variables and whose expressions are nonnegative for nonnegative variables, and whose weights are nonnegative, so that it proves the polynomial nonnegative there. The solver returns an answer or None and does not raise.", "quantifier": "every cyclic septic over every ordered field, every outcome of the root finders and searches that choose the parameters of the squares, every answer of the recursive calls", "why_tests_cant": "The certificate is assembled from closed formulas in up to twelve coefficients plus parameters found numerically; a wrong coefficient, an inexact division by abc or a weight of the wrong sign appears only for some coefficients.", "anchors": ["triples/core/structsos/ternary/septic.py:sos_struct_septic", "triples/core/structsos/ternary/septic.py:_fast_solve_quartic", "triples/core/structsos/ternary/septic.py:_sos_struct_septic_star", "triples/core/structsos/ternary/septic.py:_sos_struct_septic_biased", "triples/core/structsos/ternary/septic.py:_sos_struct_septic_hexagon", "triples/core/structsos/ternary/utils.py:try_perturbations", "triples/utils/roots/rationalize.py:square_perturbation"]}
{"id": "C77", "title": "An answer of the symmetric ternary septic solver is a complete proof", "statement": "For a symmetric polynomial of degree seven in three variables, whatever sos_struct_septic_symmetric returns is an identity with nonnegative weights and expressions whose denominator is positive for positive variables that are not all equal, and the polynomial is nonnegative wherever all three variables are. The solver raises only what its calls raise, apart from a TypeError when the univariate prover finds no proof of a sum of squares that it returned itself.", "quantifier": "every symmetric septic over every ordered field, every sound univariate prover and every choice of squares it makes", "why_tests_cant": "The polynomial is split along its symmetric axis into a two-parameter family, solved by five plus three closed formulas of degree up to ten; each formula applies only for some parameters, and a wrong coefficient shows only there.", "anchors": ["triples/core/structsos/ternary/septic_symmetric.py:sos_struct_septic_symmetric", "triples/core/structsos/ternary/septic_symmetric.py:_sos_struct_septic_symmetric_quadratic_form", "triples/core/structsos/ternary/septic_symmetric.py:_septic_sym_axis", "triples/core/structsos/ternary/sextic_symmetric.py:_restructure_quartic_polynomial"]}
{"id": "C78", "title": "The small symmetric sextic solvers answer with complete proofs, and the root search returns a validated number", "statement": "For a symmetric polynomial of degree six in three variables without the monomials of the other shapes, whatever the hexagram and tree solvers return is an identity with nonnegative weights and expressions, so the polynomial is nonnegative wherever all three variables are. The exceptions that they raise are characterised exactly. The search for a rational number near the root of a univariate polynomial returns only a number that passes the caller's validation and lies on the requested side of the root, and returns nothing only if every candidate fails.", "quantifier": "every sextic of the two shapes over every ordered field; every polynomial, validation and list of candidates of the search", "why_tests_cant": "The tree solver chooses between three closed formulas by the sign of expressions of the coefficients and falls through a list of candidates; sampled inputs reach few of the combinations, and the raising one is a single ratio of coefficients.", "anchors": ["triples/core/structsos/ternary/sextic_symmetric.py:_sos_struct_sextic_hexagram_symmetric", "triples/core/structsos/ternary/sextic_symmetric.py:_sos_struct_sextic_tree", "triples/core/structsos/utils.py:rationalize_func"]}
{"id": "C79", "title": "An answer of the ternary nonic solver is a complete proof", "statement": "For a cyclic polynomial of degree nine in three variables, whatever sos_struct_nonic returns is an identity with nonnegative weights and expressions whose denominator is positive for positive variables that are not all equal, so the polynomial is nonnegative wherever all three variables are.", "quantifier": "every cyclic nonic over every ordered field and every list of candidates of the root searches", "why_tests_cant": "Four families of shapes are solved with closed formulas of degree up to fifteen whose parameters come from a root search; two mistakes in the conditions show only on polynomials that no example exercises.", "anchors": ["triples/core/structsos/ternary/nonic.py:sos_struct_nonic", "triples/core/structsos/ternary/nonic.py:_sos_struct_nonic_symmetric_tree", "triples/core/structsos/ternary/nonic.py:_sos_struct_nonic_hexagon_symmetric", "triples/core/structsos/ternary/nonic.py:_sos_struct_nonic_hexagram_symmetric", "triples/core/structsos/ternary/nonic.py:_sos_struct_nonic_gear"]}
{"id": "C80", "title": "An answer of the cyclic ternary octic solver is a complete proof", "statement": "For a cyclic polynomial of degree eight in three variables, whatever sos_struct_octic returns is an identity with nonnegative weights and expressions whose denominator is positive for positive variables that are not all equal, provided the symmetric octic solver and the cyclic solver that it calls on a septic answer so; it raises only what they raise.", "quantifier": "every cyclic octic over every ordered field and every pair of sound called solvers", "why_tests_cant": "The octic is sent to a septic by inverting the variables, and the answer is sent back; a swapped pair of exponents in the nine terms shows only on polynomials with that coefficient.", "anchors": ["triples/core/structsos/ternary/octic.py:sos_struct_octic", "triples/core/structsos/ternary/utils.py:inverse_substitution"]}
{"id": "C81", "title": "The equations that SDPSOS adds for the roots of the polynomial lose no certificate", "statement": "SDPSOS searches a certificate f = sum of g_k times a positive semidefinite quadratic form in monomials. From the roots of f it derives linear equations that the matrices must satisfy, and searches only among their solutions. Every certificate that exists satisfies these equations, so the reduction loses nothing: the vector of monomials at a feasible root, and each of its derivatives that is imposed, is annihilated by the matrix of that constraint in every certificate. The binary root search finds exactly the roots with coordinates zero and one.", "quantifier": "every polynomial, every list of constraints and every certificate over every ordered field; every root, every number of variables and every order of derivative", "why_tests_cant": "Losing a certificate looks like an honest failure of the search: a test cannot tell whether the solver failed because there is no certificate or because the equations excluded it. The derivation by repeated differentiation has no bound on the order.", "anchors": ["triples/core/sdpsos/manifold.py:_bilinear", "triples/core/sdpsos/manifold.py:_compute_diff_orders", "triples/core/sdpsos/manifold.py:_compute_nonvanishing_diff_orders", "triples/core/sdpsos/manifold.py:_root_space", "triples/core/sdpsos/manifold.py:_findroot_binary", "triples/core/sdpsos/manifold.py:RootSubspace", "triples/utils/roots/roots.py:Root.as_vec"]}
{"id": "C82", "title": "The parameters, cyclic sums and standard form of a ternary root are exact", "statement": "For a root (a, b, c) that is not a corner, uv() returns the parameters of the quadric family that vanishes at the root and its rotations, and no other parameters do unless the root is centered. cyclic_sum(monom) returns the cyclic sum of the monomial at the root divided by the power of a + b + c, for every exponent, although it is computed by reduction modulo a cubic from the two parameters alone. standardize(cyc=True) returns the rotation of the multiple with sum 3 whose largest value comes first, and returns the same for every rotation and every nonzero multiple of the root.", "quantifier": "every root over every ordered field; every exponent; every rotation and every nonzero scale", "why_tests_cant": "The cyclic sums are computed by recursion on exponents from nine closed formulas; a test checks some exponents at some roots, an error in one formula shows only at others.", "anchors": ["triples/utils/roots/roots.py:TernaryMixin.uv", "triples/utils/roots/roots.py:TernaryMixin.cyclic_sum", "triples/utils/roots/roots.py:TernaryMixin.poly", "triples/utils/roots/roots.py:TernaryMixin.standardize", "triples/utils/roots/roots.py:Root.is_corner", "triples/utils/roots/roots.py:Root.is_symmetric"]}
{"id": "C83", "title": "The tangents of LinearSOS vanish at the roots they are made for", "statement": "LinearSOS squares tangents, polynomials that vanish at the roots of the input. Every tangent made for an interior root vanishes at the root and all its rotations; tangents of border and symmetric roots vanish at two of the three rotations, or, for symmetric polynomials, at one rotation of the root and of its mirror image; a tangent made for an interior root together with border roots vanishes at both; tangents of polynomials without symmetry vanish at the root, and for several border roots each pair has a line through both. The generation raises NameError exactly if the two parameters of the interior root are equal, which does not occur for an exact nontrivial root with nonzero sum.", "quantifier": "every root over every ordered field, every parameter of the tangent families", "why_tests_cant": "A tangent that misses the root makes LinearSOS fail silently: the term gets the coefficient zero, no answer is wrong, a certificate is only not found. A test on one polynomial exercises one family.", "anchors": ["triples/core/linsos/tangents.py:_tangents_helper_ternary_cyclic", "triples/core/linsos/tangents.py:_tangents_helper_ternary_symmetric", "triples/core/linsos/tangents.py:_tangents_helper_ternary_mixed", "triples/core/linsos/tangents.py:_tangents_helper_ternary_acyclic", "triples/core/linsos/tangents.py:_standard_border_root", "triples/core/linsos/tangents.py:_standard_symmetric_root"]}
{"id": "C84", "title": "An answer of the solver of cyclic ternary sextics is a proof", "statement": "For a homogeneous cyclic polynomial of degree six in three variables that is nonnegative for nonnegative variables, the structural solver either answers with a sum of nonnegative weights times expressions that are nonnegative there, divided by a denominator that is positive at positive points not all equal, and equal to the polynomial, or it returns None; it does not raise.", "quantifier": "every cyclic ternary sextic over every ordered field, every result of the numerical searches", "why_tests_cant": "The answers come from closed formulas with up to ten coefficients and six cases, found by numerical searches; some weights are not tested by the code and are nonnegative only because of a second-order condition at the centre. Tests check a few polynomials.", "anchors": ["triples/core/structsos/ternary/sextic.py:sos_struct_sextic", "triples/core/structsos/ternary/sextic.py:_sos_struct_sextic_hexagram", "triples/core/structsos/ternary/sextic.py:_sos_struct_sextic_rotated_tree", "triples/core/structsos/ternary/sextic.py:_sos_struct_sextic_hexagon", "triples/core/structsos/ternary/sextic.py:_sos_struct_sextic_hexagon_sdp", "triples/core/structsos/ternary/sextic.py:_sos_struct_sextic_hexagon_to_hexagram", "triples/core/structsos/ternary/sextic.py:_sos_struct_sextic_full_sdp"]}
{"id": "C85", "title": "An answer of the solver of symmetric ternary quintics is a proof", "statement": "For a homogeneous symmetric polynomial of degree five in three variables, an answer of the structural solver is a sum of nonnegative weights times expressions that are nonnegative for nonnegative variables, divided by a denominator that is positive at positive points not all equal, and equal to the polynomial, so the polynomial is nonnegative for all nonnegative variables. The solver does not raise. It refuses at once only polynomials that take a negative value.", "quantifier": "every symmetric ternary quintic over every ordered field, every result of the root searches and roundings", "why_tests_cant": "The solver has ten closed formulas chosen by the position of the coefficients relative to a plane curve; some weights are never tested. Tests check a few polynomials and cannot reach the degenerate positions.", "anchors": ["triples/core/structsos/ternary/quintic_symmetric.py:sos_struct_quintic_symmetric", "triples/core/structsos/ternary/quintic_symmetric.py:_sos_struct_quintic_symmetric_hexagon"]}
{"id": "C86", "title": "The printed form of a polynomial denotes the polynomial", "statement": "For a polynomial invariant under a permutation group, the string s(...) of the standard form, read as a sum over the whole group, equals the polynomial: exactly one monomial of every orbit is printed, the largest, with its coefficient divided by the number of permutations that fix it. The factor form, read with p(...) as a product over the group, equals the polynomial as well.", "quantifier": "every finite permutation group given by any generators, every invariant polynomial in any number of variables, every order of the terms; for the factor form every list of factors with multiplicities", "why_tests_cant": "The monomials of an orbit are collected by a union-find whose key set, on which the multiplicities depend, is built as a side effect of the merges. Tests try a few polynomials for small groups.", "anchors": ["triples/utils/expression/form.py:poly_get_standard_form", "triples/utils/expression/form.py:_reduce_factor_list"]}
{"id": "C87", "title": "Every request to the server is answered, and settings do not leak between calls", "statement": "Every message sent for a request goes to its client with its time stamp, at most one message with tangents and after it at most one answer of the solver. A request for a decomposition whose text is a polynomial is answered exactly once, also if nothing is found or the solver raises; a success that is reported is a solution of the methods chosen, in their order. The tangents given by the user reach the solver in order. The manager returns None if nothing is found, and a call obeys the verbosity set at that time, whatever calls came before.", "quantifier": "every request, every behaviour of parser, root search and solvers, every history of calls of the manager", "why_tests_cant": "Requests have many optional fields whose combinations are not enumerable, and the default configuration is shared by all calls, so the result of a call depends on the whole history.", "anchors": ["web_main.py:preprocess", "web_main.py:findroot", "web_main.py:sum_of_squares", "triples/gui/sos_manager.py:SOS_Manager.sum_of_squares", "triples/gui/sos_manager.py:_default_polynomial_check"]}
{"id": "C88", "title": "The grid of values is exact, drawn in the right place, and its local minima are all found", "statement": "With integer coefficients and within the limits of size and degree the grid holds the value of the polynomial at every point. The heat map writes inside the image and colours each pixel with the colour of the point it stands for. The search for local minima never fails; without reduction by symmetry it returns exactly the interior points that are smaller than all six neighbours; with reduction, for a cyclic polynomial, it returns a rotation of every such point other than the centre.", "quantifier": "every polynomial with integer coefficients, every size, every function on the grid with values in a linear order", "why_tests_cant": "The search truncates the list of points by a formula in the size and assumes that the largest coordinate comes first; whether a minimum is lost depends on the size and on where the minimum lies.", "anchors": ["triples/utils/roots/grid.py:GridPoly.local_minima", "triples/utils/roots/grid.py:GridPoly.save_heatmap", "triples/utils/roots/grid.py:GridRender._render_grid_value", "triples/utils/roots/grid.py:_grid_init_precal"]}
{"id": "C89", "title": "What the symmetric octic solver answers is a proof of the given polynomial", "statement": "For a symmetric homogeneous ternary polynomial of degree eight, whatever numbers the root finding offers: an answer is an identity between the polynomial and a quotient whose denominator is positive at positive points that are not all equal, whose expressions are nonnegative where the variables are, and whose weights are nonnegative. So only polynomials that are nonnegative get an answer.", "quantifier": "every symmetric ternary octic over an ordered field, every sequence of numbers offered by the search for parameters, every root interval", "why_tests_cant": "The formulas have up to seven symbolic parameters and many degenerate cases in which a denominator or a leading term vanishes; random tests do not meet these cases, and the answer is declared equal to the input without a check.", "anchors": ["triples/core/structsos/ternary/octic_symmetric.py:sos_struct_octic_symmetric", "triples/core/structsos/ternary/octic_symmetric.py:_sos_struct_octic_symmetric_hexagon_sdp", "triples/core/structsos/ternary/octic_symmetric.py:_sos_struct_octic_symmetric_hexagon", "triples/core/structsos/ternary/octic_symmetric.py:_sos_struct_octic_symmetric_hexagram", "triples/core/structsos/ternary/octic_symmetric.py:_solve_inverse_quartic"]}
{"id": "C90", "title": "A solved SDP problem holds an exact solution and usable certificates", "statement": "When solve() of an SDP problem returns True with allow_numer=0, the attributes y, S and decompositions of the problem on which it was called, and of every problem between it and its last transformation, hold an exact vector, the matrices at that vector and for each matrix a factorisation U^T diag(D) U with nonnegative D; for a primal problem the vector satisfies the equations. When it returns False no numerical solution was found and the attributes are unchanged. If the numerical solutions are strictly feasible with a margin larger than the effect of rounding to denominator 1260^3, solve() returns True. With allow_numer>0 the same attributes can be read in the same way.", "quantifier": "every problem, every sequence of outcomes of the numerical solver, every earlier history of solutions, every chain of transformations, every result of the rounding functions", "why_tests_cant": "The numerical solver and the rounding may return anything; the history of earlier calls enters through the mean of all solutions; success must follow for every strictly feasible problem of every size.", "anchors": ["triples/sdp/abstract.py:SDPProblemBase.solve", "triples/sdp/abstract.py:SDPProblemBase._solve_from_multiple_configs", "triples/sdp/abstract.py:SDPProblemBase.register_y", "triples/sdp/rationalize.py:rationalize_and_decompose", "triples/sdp/rationalize.py:verify_is_pretty", "triples/sdp/primal.py:SDPPrimal.project", "triples/sdp/primal.py:SDPPrimal.S_from_y", "triples/sdp/transform.py:SDPTransformMixin.propagate_to_parent"]}
{"id": "C91", "title": "The expression written by LinearSOS has the value of its certificate", "statement": "The solution expression of LinearSOS equals the sum of the bases with their coefficients divided by the sum of the multipliers with theirs, whichever common factors are extracted, in whatever order the factors are listed, with and without collecting, and with equality constraints pulled in front of the cyclic sum. Hence it equals the polynomial wherever the multiplier is not zero. Each extraction is the best one among products of at most five factors, every term is written exactly once, and collecting never increases the complexity of the expression.", "quantifier": "every list of coefficients and bases, every set of constraints, every permutation group, every order of the set of factors, every complexity of the factors, every point", "why_tests_cant": "The grouping depends on the hash order of a Python set and on an optimisation over all combinations of factors; an identity of expressions must hold for every certificate.", "anchors": ["triples/core/linsos/solution.py:_collect_constraints", "triples/core/linsos/solution.py:_collect_multipliers", "triples/core/linsos/solution.py:_collect_eq_constraints", "triples/core/linsos/solution.py:_collect_ineq_constraints", "triples/core/linsos/solution.py:_solve_optimal_factor", "triples/core/linsos/solution.py:_solve_optimal_factor_recursively"]}
{"id": "C92", "title": "An answer of the quintic solver proves the cyclic quintic", "statement": "Whatever the solver for cyclic ternary quintics returns is equal to the polynomial it was given, for all values of the variables where the denominator is not zero; every term is nonnegative for nonnegative variables and has a nonnegative coefficient; the denominator is positive at positive points that are not all equal. So an answer shows that the quintic is nonnegative for all nonnegative numbers. It does not depend on what the numerical root searches find or how roots are rounded.", "quantifier": "every cyclic ternary quintic over an ordered field, every result of the root searches and roundings, every answer of the solvers called for smaller problems", "why_tests_cant": "The answers are parametric families of identities of degree five to eight with several real parameters found by root finding; a test covers single polynomials, and a wrong identity can only be seen by expanding it for all parameters.", "anchors": ["triples/core/structsos/ternary/quintic.py:sos_struct_quintic", "triples/core/structsos/ternary/quintic.py:_sos_struct_quintic_full", "triples/core/structsos/ternary/quintic.py:_sos_struct_quintic_windmill", "triples/core/structsos/ternary/quintic.py:_sos_struct_quintic_uncentered", "triples/core/structsos/ternary/quintic.py:_sos_struct_quintic_hexagon", "triples/core/structsos/ternary/quintic.py:_solve_quintic_hexagon_pqz"]}
{"id": "C93", "title": "The entry point for three variables returns only proofs of the given polynomial", "statement": "structural_sos_3vars returns, for a homogeneous ternary polynomial, nothing or an expression. If it returns an expression and the constraints say that the variables are nonnegative, the polynomial is nonnegative for all nonnegative numbers: whichever of the solvers gave the answer, after common monomials and common powers were taken out, the answer has the value of the given polynomial at all positive points that are not all equal. Exceptions that the solvers use to give up do not reach the caller. Without constraints a polynomial of odd degree gets no answer.", "quantifier": "every ternary form over an ordered field of every degree, cyclic or not, every result of the root searches of all solvers, every order of the set of monomials", "why_tests_cant": "The entry point composes a dozen solvers with rewritings of the input and the output; tests cover single polynomials, while a coefficient that one of the stages does not look at can only be found by comparing the answer with the polynomial for all coefficients.", "anchors": ["triples/core/structsos/ternary/solver.py:structural_sos_3vars", "triples/core/structsos/ternary/solver.py:_structural_sos_3vars_cyclic", "triples/core/structsos/ternary/solver.py:_structural_sos_3vars_acyclic", "triples/core/structsos/sparse.py:sos_struct_common", "triples/core/structsos/sparse.py:sos_struct_extract_factors", "triples/core/structsos/ternary/sparse.py:sos_struct_sparse", "triples/core/structsos/ternary/acyclic.py:sos_struct_acyclic_sparse", "triples/core/structsos/ternary/quartic.py:sos_struct_acyclic_quartic"]}
{"id": "C94", "title": "Global minimisation by boxes returns feasible points and loses no better one", "statement": "rpa_monotonic, rpa_gmop and rpa_polyopt minimise a function over a box under constraints. A returned point lies in the box, meets the constraints (equations up to the given tolerance), the returned value is the value of the objective there, and it is below the value handed in. If the search is said to have converged, no feasible point has a value that is smaller by more than the tolerance; in particular, if it converges without a point, every feasible point is worse than the value handed in up to the tolerance, and if no value was handed in there is no feasible point. A search over a problem with a feasible point does not raise.", "quantifier": "every number of variables, all continuous increasing functions (for rpa_polyopt all lists of polynomials), every box, tolerance, bound on the number of iterations and every choice of the next box", "why_tests_cant": "Branch and bound prunes boxes; a wrong pruning shows only for functions whose optimum lies in the pruned box, and tests compare few functions with known optima.", "anchors": ["triples/utils/roots/monotonic_opt.py:rpa_monotonic", "triples/utils/roots/monotonic_opt.py:rpa_gmop", "triples/utils/roots/monotonic_opt.py:rpa_polyopt", "triples/utils/roots/monotonic_opt.py:poly_as_dm", "triples/utils/roots/monotonic_opt.py:_red"]}
{"id": "C95", "title": "The solvers for symmetric sextics without a^6 return identities", "statement": "An answer for a symmetric ternary sextic without the terms a^6 is equal to the polynomial and is a sum of terms that are nonnegative for a,b,c>=0; for the routine for all reals (hexagons without a^5b) the terms are nonnegative for all reals. The routine raises no exception.", "quantifier": "all coefficients in an ordered field (irrational coefficients included), both settings of the flag for real numbers, all behaviours of the external solvers within their contracts", "why_tests_cant": "The routine has about fifteen branches chosen by sign conditions of up to six coefficients; four of them are wrong on full-dimensional sets of coefficients that the examples in the docstrings do not meet.", "anchors": ["triples/core/structsos/ternary/sextic_symmetric.py:_sos_struct_sextic_hexagon_symmetric", "triples/core/structsos/ternary/sextic_symmetric.py:_sos_struct_sextic_hexagon_symmetric_sdp", "triples/core/structsos/ternary/sextic_symmetric.py:_sos_struct_sextic_iran96", "triples/core/structsos/ternary/sextic_symmetric.py:_sos_struct_sextic_symmetric_schur_split"]}
{"id": "C96", "title": "The solver of symmetric sextics returns identities, for all reals where it says so", "statement": "An answer for a symmetric ternary sextic is equal to the polynomial and is a sum of terms that are nonnegative for a,b,c>=0; an answer of the method for all reals is a sum of terms that are nonnegative everywhere. If it answers for a polynomial it answers for its positive multiples. The solver reads no variable before it is assigned and lets only exceptions of the solvers it calls through.", "quantifier": "all coefficients in an ordered field, all lists of roots that the root finder may return, both settings of the flag for real numbers, all behaviours of the called solvers within their contracts", "why_tests_cant": "The branches depend on the position of double roots, which tests meet only for the examples of the docstrings; the identities have up to seven free parameters.", "anchors": ["triples/core/structsos/ternary/sextic_symmetric.py:sos_struct_sextic_symmetric_ultimate", "triples/core/structsos/ternary/sextic_symmetric.py:_sos_struct_sextic_symmetric_full_sdp", "triples/core/structsos/ternary/sextic_symmetric.py:_sos_struct_sextic_symmetric_ultimate", "triples/core/structsos/ternary/sextic_symmetric.py:_sos_struct_sextic_symmetric_ultimate_1root", "triples/core/structsos/ternary/sextic_symmetric.py:_sos_struct_sextic_symmetric_ultimate_2roots"]}
{"id": "C97", "title": "The quadratic-form method for symmetric sextics returns identities", "statement": "Whenever the method that decomposes a symmetric ternary sextic along its axis of symmetry answers, the answer is an expression equal to the polynomial, a sum of nonnegative terms for a,b,c>=0 divided by a positive one. It answers whenever the coefficient of p(a-b)^2 is at least a third of the one of the main form. An exception in a later attempt does not lose an answer found before.", "quantifier": "all coefficients of a symmetric sextic in an ordered field, all sums of squares the univariate prover may return, all real roots and isolating intervals the root finder may return", "why_tests_cant": "The decomposition has six free parameters and the bound depends on a root of a quintic in two parameters; the identities hold or fail on whole families, and the exceptional values (infinite ratio, x=1) do not occur in random polynomials.", "anchors": ["triples/core/structsos/ternary/sextic_symmetric.py:_sos_struct_sextic_symmetric_quadratic_form", "triples/core/structsos/ternary/sextic_symmetric.py:_sextic_sym_axis"]}
{"id": "C98", "title": "The symmetric change of variables for four variables is exact", "statement": "sym_representation with four variables and the method for real numbers returns a numerator and a denominator whose quotient, after the inverse substitution, is the given symmetric polynomial wherever the new variables are defined and not zero. The variables that are declared nonnegative are nonnegative at every point. The denominator is nonnegative, as documented.", "quantifier": "all weighted homogeneous polynomials of any degree in the elementary symmetric polynomials of four variables over an ordered field, all points, all divisions and contents within their contracts", "why_tests_cant": "The formulas contain a discriminant of degree twelve and exponents that depend on the degree modulo six; a test sees one degree and one polynomial at a time, and cancellations of common powers depend on the polynomial.", "anchors": ["triples/core/symsos/symmetric.py:_symmetric_real_4vars", "triples/core/symsos/symmetric.py:SymmetricReal.get_inv_dict", "triples/core/symsos/symmetric.py:SymmetricReal.get_default_constraints", "triples/core/symsos/representation.py:sym_representation"]}
{"id": "C99", "title": "The search for roots reports the least candidates, and the optimizers return what they promise", "statement": "findroot reports candidates only, at most `most` of them, in the order of their values, and none that was left out has a smaller value than a reported one; the strict roots are the reported ones of value below the tolerance, and normal_roots are the others. Of candidates with equal rounded coordinates one is kept. find_best returns a best choice. optimize_discriminant without soft returns only points where the discriminant is not positive, and returns one whenever a point of its grid is. Changing to inhomogeneous coordinates and back does not move a root. filter_tangents keeps the tangents that vanish at the nontrivial roots.", "quantifier": "all lists of candidates, all values, all tolerances and limits, all functions of two variables, all results of the numerical iterations", "why_tests_cant": "The numerical solvers may return any list of candidates with any values; tests see a few polynomials, all with the default parameters.", "anchors": ["triples/utils/roots/findroot.py:findroot", "triples/utils/roots/findroot.py:find_best", "triples/utils/roots/findroot.py:optimize_discriminant", "triples/utils/roots/findroot.py:_findroot_helper._destd_root", "triples/utils/roots/findroot.py:_findroot_helper._std_root", "triples/utils/roots/findroot.py:_findroot_helper._remove_duplicative_roots", "triples/utils/roots/rootsinfo.py:RootsInfo.normal_roots", "triples/utils/roots/rootsinfo.py:RootsInfo.filter_tangents"]}
{"id": "C100", "title": "An answer of SymmetricSOS proves the symmetric inequality", "statement": "If SymmetricSOS returns a solution for a homogeneous symmetric polynomial in three variables, the solution has the value of the polynomial wherever its denominators are not zero, it is nonnegative wherever the user's constraints on single variables hold, and the polynomial is nonnegative: at every real point if there are no such constraints, at every point with nonnegative coordinates if the variables are given as nonnegative. Wrong signs inferred from transformed constraints and denominators of the wrong sign never reach the user.", "quantifier": "all symmetric polynomials of any degree over an ordered field, all lists of constraints, all points, all answers of the bivariate prover within its contract", "why_tests_cant": "The answer is put together from a change of variables, a recursive proof in the new variables and a last check of the whole expression; intermediate signs can be wrong, so only the composition is sound, and a test sees one polynomial and one list of constraints.", "anchors": ["triples/core/symsos/symsos.py:SymmetricSOS", "triples/core/symsos/symsos.py:_nonnegative_vars", "triples/core/symsos/symmetric.py:SymmetricReal.get_inv_dict", "triples/core/symsos/symmetric.py:SymmetricPositive.get_inv_dict", "triples/core/symsos/solution.py:SolutionSymmetric._extract_nonnegative_exprs"]}
{"id": "C101", "title": "The symmetry group found for a polynomial is one it really has", "statement": "identify_symmetry returns, for every polynomial in at least one variable, a group of permutations of the variables each of which leaves the value of the polynomial unchanged at every point. It returns the symmetric group exactly for symmetric polynomials, the cyclic group for polynomials that are only rotation invariant, and, for a homogenised polynomial without further symmetry, the group of all permutations fixing the added variable exactly when the polynomial was symmetric before homogenisation. For an odd number of variables the alternating group is never returned.", "quantifier": "all polynomials in any number of variables with coefficients in a commutative ring, all elements of the group, all points", "why_tests_cant": "The code tests two generators on the stored monomials; the claim is about every element of a group with up to n! elements and about every point.", "anchors": ["triples/utils/expression/coeff.py:identify_symmetry", "triples/utils/expression/coeff.py:Coeff.is_symmetric", "triples/utils/expression/coeff.py:Coeff.is_cyclic"]}
{"id": "C102", "title": "Zeros of a nonnegative polynomial on the border or on the symmetric axis are among the candidates", "statement": "For a polynomial in three variables that is nonnegative for nonnegative variables, every zero with exactly one coordinate zero is among the points that findroot considers on the border (up to a rotation if the polynomial is cyclic), unless the polynomial vanishes on that whole edge; the same holds for zeros (r,1,1) with r > 0. Every point reported there lies on the edge or axis in the nonnegative orthant and is critical for the restricted polynomial with nonnegative second derivative. A zero at a vertex can be missed.", "quantifier": "all polynomials in three variables of any degree with real coefficients, all zeros on the edges and on the axis", "why_tests_cant": "A zero that is not found makes the solvers look for certificates that do not vanish there and fail; a test checks zeros of one polynomial, the claim is for all degrees and positions.", "anchors": ["triples/utils/roots/findroot.py:_findroot_helper._findroot_border", "triples/utils/roots/findroot.py:_findroot_helper._findroot_symmetric", "triples/utils/roots/findroot.py:findroot"]}
{"id": "C103", "title": "The KKT system contains every regular minimum, and its solutions of convex problems are minima", "statement": "The system returned by kkt(f, ineqs, eqs) is solved, for some multipliers, by every local minimum of f on the feasible set at which the gradients of the tight constraints are linearly independent. Conversely a solution with nonnegative multipliers for the inequalities is a global minimum on the feasible set whenever the Lagrangian with these multipliers is convex. With with_self the system asks in addition for the value zero. A minimum with dependent gradients can be lost.", "quantifier": "all polynomials f, all numbers of variables and of constraints, all points", "why_tests_cant": "The relation between a system of equations and the minima of a constrained problem is a statement about all points near a solution; a test can only compare one system with its expected text.", "anchors": ["triples/utils/roots/findroot.py:kkt"]}
{"id": "C104", "title": "The interior point method never leaves the feasible set", "statement": "In exact arithmetic, sdp_ipm started at a positive definite matrix that satisfies the linear conditions returns only positive definite matrices that satisfy them, with an objective not above that of the start. Each pass lowers the objective by exactly the reported diff, which is not negative. If the objective is bounded below and not constant on the feasible set, the method returns within a number of passes given by epsilon. The phase-one search sdp_ipm_feasible returns a positive definite matrix whose error in every condition is one common positive multiple, at most one, of the error of the start.", "quantifier": "all symmetric matrices A, C of all sizes, all b, all positive definite feasible starts, all step parameters in (0, 1), all tolerances and numbers of passes", "why_tests_cant": "Feasibility and definiteness are invariants of a loop of unknown length over real matrices; a test runs one program in floating point, where they hold only up to rounding.", "anchors": ["triples/sdp/ipm.py:sdp_ipm", "triples/sdp/ipm.py:sdp_ipm_feasible", "triples/sdp/ipm.py:sdp_dual_feasible"]}
