{"id": "C01", "title": "Piecewise-linear root finder returns the root", "statement": "find_solution_piecewise_linear_c(b, slope, norms) (slope>=0, norms>=0): if sum(norms) < b it returns 0; otherwise, whenever some t in [0, max(norms)] solves sum_i max(norms_i - t,0) = slope*t + b, the returned number is nonnegative and solves it. find_solution_piecewise_linear (weights) and find_solution_piecewise_linear_uncon return the root of their own functions.", "quantifier": "every vector length >=1, all real entries (ties, zeros), every b and slope>=0, every order np.argsort may return on ties", "why_tests_cant": "The loop visits knots in sorted order and may stop at any of them; ties, zero entries, b equal to a breakpoint, and length 1 are all different branches and there are infinitely many inputs.", "anchors": ["regreg/atoms/piecewise_linear.pyx: find_solution_piecewise_linear, find_solution_piecewise_linear_c, find_solution_piecewise_linear_uncon"]}
{"id": "C02", "title": "projl1 is the Euclidean projection onto the l1 ball", "statement": "For bound >= 0, projl1(x, bound) is feasible (sum|y_i| <= bound) and no feasible point is closer to x; a point already strictly inside is returned unchanged.", "quantifier": "all x in R^n (n>=1), all bound>=0", "why_tests_cant": "Optimality is a comparison with every other point of the ball.", "anchors": ["regreg/atoms/projl1_cython.pyx: projl1, soft_threshold", "regreg/atoms/seminorms.py: l1norm.bound_prox"]}
{"id": "C03", "title": "l1 soft-thresholding is the proximal map", "statement": "l1norm.lagrange_prox(x, lipschitz=L, lagrange=lam) is the unique minimiser of L/2||z-x||^2 + lam*||z||_1, for every L>0 and lam>=0 (lam = inf gives 0 in the limit as documented).", "quantifier": "all x, L>0, lam>=0, all candidate z", "why_tests_cant": "Uniqueness/optimality ranges over all z.", "anchors": ["regreg/atoms/seminorms.py: l1norm.lagrange_prox", "regreg/atoms/projl1_cython.pyx: soft_threshold"]}
{"id": "C04", "title": "projl1_epigraph is the projection onto the epigraph of the l1 norm", "statement": "projl1_epigraph(center) lies in {(v,u): ||v||_1 <= u} and is the closest point of that set to center.", "quantifier": "all centers in R^{n+1}, n>=1", "why_tests_cant": "Three regimes (inside, polar cone, boundary) with arbitrary ties; optimality over an infinite set.", "anchors": ["regreg/atoms/projl1_cython.pyx: projl1_epigraph", "regreg/atoms/cones.py: l1_epigraph.cone_prox"]}
{"id": "C05", "title": "sup norm proximal maps are optimal", "statement": "supnorm.lagrange_prox minimises L/2||z-x||^2+lam*max|z_i|; supnorm.bound_prox is the projection on {max|z_i|<=bound}.", "quantifier": "all x, L>0, lam>=0, bound>=0, all candidates", "why_tests_cant": "Optimality over all candidate points.", "anchors": ["regreg/atoms/seminorms.py: supnorm.lagrange_prox, supnorm.bound_prox"]}
{"id": "C06", "title": "l2 norm proximal maps are optimal", "statement": "l2norm.lagrange_prox minimises L/2||z-x||^2+lam*||z||_2 and l2norm.bound_prox projects on {||z||_2<=bound}, including x = 0 and the boundary cases.", "quantifier": "all x incl. 0, L>0, lam>=0, bound>=0", "why_tests_cant": "Division by the norm must be guarded for every x; optimality over all candidates.", "anchors": ["regreg/atoms/seminorms.py: l2norm.lagrange_prox, l2norm.bound_prox"]}
{"id": "C07", "title": "positive-part family proximal maps are optimal", "statement": "For positive_part, constrained_max, constrained_positive_part and max_positive_part both lagrange_prox and bound_prox return the minimiser of the documented penalised / constrained problem.", "quantifier": "all x, L>0, lam>=0, bound>=0, all candidates", "why_tests_cant": "Optimality over all candidates, several sign patterns.", "anchors": ["regreg/atoms/seminorms.py: positive_part, constrained_max, constrained_positive_part, max_positive_part"]}
{"id": "C08", "title": "Conjugate pairs are dual seminorms", "statement": "For every pair registered in conjugate_seminorm_pairs with values h and h*, <x,y> <= h(x)*h*(y) on the effective domains and the bound is attained for every y (h*(y) = sup over h(x)<=1), so that lagrange=r on one side is exactly conjugate to bound=r on the other.", "quantifier": "all registered pairs, all vectors x,y", "why_tests_cant": "A supremum over all vectors.", "anchors": ["regreg/atoms/seminorms.py: conjugate_seminorm_pairs and the seminorm/constraint methods"]}
{"id": "C09", "title": "Moreau decomposition between an atom and its conjugate", "statement": "For every registered pair, prox of lam*h at x plus the projection of x on the dual ball of radius lam equals x, for the values actually returned by lagrange_prox and bound_prox (with lipschitz L: x = lagrange_prox(x,L,lam) + bound_prox(L*x, bound=lam)/L).", "quantifier": "all pairs, all x, all L>0, lam>=0", "why_tests_cant": "An identity over all real vectors; tests only sample floats.", "anchors": ["regreg/atoms/seminorms.py", "regreg/atoms/cones.py: conjugate_cone_pairs"]}
{"id": "C10", "title": "atom.proximal solves the stated problem with offset and quadratic", "statement": "atom.proximal(q) returns the minimiser of q(x) + atom.quadratic(x) + h(x - offset) in both lagrange and bound mode, and raises ValueError exactly when the total quadratic coefficient is 0.", "quantifier": "all atoms h given by a correct base prox, all offsets (None, zero, nonzero), all quadratics q, all x", "why_tests_cant": "Composition of four rewritings (sum, recenter, scaling, shift) for arbitrary real data.", "anchors": ["regreg/atoms/seminorms.py: seminorm.proximal, lagrange_prox, bound_prox", "regreg/identity_quadratic.py: __add__, recenter, collapsed", "regreg/atoms/cones.py: cone.proximal"]}
{"id": "C11", "title": "Projected points pass the atom's own feasibility test", "statement": "For each constraint-type atom, constraint(x) is 0 exactly on the documented set up to the tolerance; in particular bound_prox output is reported feasible.", "quantifier": "all atoms, all x, all bounds", "why_tests_cant": "Membership is checked by tolerance formulas whose boundary cases are measure zero for random tests.", "anchors": ["regreg/atoms/seminorms.py: seminorm/constraint of l1norm, supnorm, l2norm, positive_part, constrained_max, constrained_positive_part, max_positive_part", "regreg/atoms/cones.py: constraint"]}
{"id": "C12", "title": "An atom is always in exactly one of lagrange or bound mode", "statement": "Construction succeeds exactly when one of lagrange/bound is given and nonnegative; afterwards through any sequence of set_lagrange / set_bound calls the mode never changes, wrong-mode calls raise and leave the atom unchanged, and the stored parameter is the last one successfully set.", "quantifier": "all constructor arguments and all finite sequences of operations", "why_tests_cant": "Holds for every history.", "anchors": ["regreg/atoms/seminorms.py: seminorm.__init__, set_lagrange, set_bound, get_lagrange, get_bound"]}
{"id": "C13", "title": "get_conjugate returns the Fenchel conjugate", "statement": "For an atom f(x)=lam*h(x-offset)+q(x) with q linear (coef 0), get_conjugate's nonsmooth_objective is sup_x <x,y>-f(x); with nonzero quadratic coefficient it is the smoothed conjugate; taking the conjugate twice yields a function equal to f.", "quantifier": "all offsets, linear terms, constants, parameters, all y", "why_tests_cant": "A supremum over all x and an involution over all parameterisations.", "anchors": ["regreg/atoms/__init__.py: _work_out_conjugate", "regreg/atoms/seminorms.py: get_conjugate", "regreg/atoms/cones.py: get_conjugate"]}
{"id": "C14", "title": "identity_quadratic algebra preserves function values", "statement": "q1+q2 evaluates to q1(x)+q2(x) for all x; collapsed() evaluates to q(x); objective(x,'both') equals (objective(x,'func'), objective(x,'grad')) and 'grad' is the gradient of 'func'; adding None changes nothing.", "quantifier": "all coefficients, centers, linear terms, constants (including None) and all x", "why_tests_cant": "Identity over all reals in all None/zero combinations.", "anchors": ["regreg/identity_quadratic.py: identity_quadratic.__init__, objective, __add__, collapsed, iszero"]}
{"id": "C15", "title": "recenter and conjugate of identity_quadratic", "statement": "recenter(offset) returns (offset, q') with q'(x - offset) equal to q(x) up to an additive constant that does not depend on x, hence with the same minimisers; conjugate of a quadratic with coef != 0 is its Fenchel conjugate.", "quantifier": "all quadratics and offsets, all x", "why_tests_cant": "Identity over all reals; argmin over all candidates.", "anchors": ["regreg/identity_quadratic.py: recenter, conjugate, true_center"]}
{"id": "C16", "title": "Coordinate cone projections", "statement": "nonnegative, nonpositive, zero and zero_constraint cone_prox return the Euclidean projection on the cone they name, and the polar pairs sum to the input.", "quantifier": "all x", "why_tests_cant": "Optimality over the infinite cone.", "anchors": ["regreg/atoms/cones.py: nonnegative, nonpositive, zero, zero_constraint"]}
{"id": "C17", "title": "Epigraph cone projections", "statement": "l1/linf/l2 epigraph and epigraph_polar cone_prox return the projection on the epigraph cone (resp. its polar) for every input point.", "quantifier": "all points of R^{n+1}", "why_tests_cant": "Several regimes, the wrong one chosen only on some open sets and boundaries.", "anchors": ["regreg/atoms/cones.py: l2_epigraph, l2_epigraph_polar, l1_epigraph, l1_epigraph_polar, linf_epigraph, linf_epigraph_polar"]}
{"id": "C18", "title": "Simplex projection and max prox", "statement": "simplex.cone_prox returns the projection on the unit simplex {x>=0, sum x = 1}; maximum.cone_prox returns the minimiser of L/2||z-x||^2+max(z); max and the simplex indicator are conjugate.", "quantifier": "all x in R^n, n>=1, L>0", "why_tests_cant": "Optimality over all candidates and arbitrary ties.", "anchors": ["regreg/atoms/simplex.py: simplex, maximum", "regreg/atoms/piecewise_linear.pyx: find_solution_piecewise_linear_uncon"]}
{"id": "C19", "title": "Pool-adjacent-violators computes the isotonic regression", "statement": "isotonic_regression(y, weights) terminates and returns the unique nondecreasing vector minimising sum w_i (y_i - s_i)^2.", "quantifier": "all lengths, all y, all positive weights", "why_tests_cant": "The pooling order is data dependent with unboundedly many merges; optimality over all monotone vectors.", "anchors": ["regreg/atoms/_isotonic.pyx: _isotonic_regression", "regreg/atoms/_isotonic_py.py"]}
{"id": "C20", "title": "SLOPE prox is optimal", "statement": "slope.lagrange_prox returns the minimiser of L/2||z-x||^2 + lam*sum_i w_i |z|_(i) for nonincreasing weights w.", "quantifier": "all x, all sorted weights, L>0, lam>=0", "why_tests_cant": "Sorting, isotonic pooling and clipping interact; optimality over all z.", "anchors": ["regreg/atoms/slope.py: slope.lagrange_prox, _basic_proximal_map", "regreg/atoms/_isotonic.pyx"]}
{"id": "C21", "title": "Group LASSO prox is optimal", "statement": "group_lasso.lagrange_prox minimises L/2||z-x||^2+lam*sum_g w_g||z_g||_2 and the dual's bound_prox projects on {||z_g||<=bound*w_g for all g}, including zero-weight groups and zero blocks.", "quantifier": "every assignment of coordinates to groups, all weights>=0, all x", "why_tests_cant": "All group structures and all points.", "anchors": ["regreg/atoms/group_lasso.py: group_lasso.lagrange_prox, group_lasso_dual.bound_prox"]}
{"id": "C22", "title": "Sparse group LASSO prox is optimal", "statement": "sparse_group_lasso.lagrange_prox (soft-threshold followed by group shrink) minimises L/2||z-x||^2+lam*(sum_i a_i|z_i|+sum_g w_g||z_g||).", "quantifier": "all groups, weights >=0, x, L>0, lam>=0", "why_tests_cant": "Composition of two proximal maps is in general not the prox of the sum; must hold for all points.", "anchors": ["regreg/atoms/sparse_group_lasso.py: sparse_group_lasso.lagrange_prox", "regreg/atoms/sparse_group_block.py"]}
{"id": "C23", "title": "Weighted l1 / sup norm proximal maps are optimal", "statement": "weighted_atoms.l1norm.lagrange_prox/bound_prox and weighted_atoms.supnorm.lagrange_prox/bound_prox minimise the weighted problems, including zero weights.", "quantifier": "all weights>=0, all x, all parameters", "why_tests_cant": "Optimality over all candidates with arbitrary zero-weight patterns.", "anchors": ["regreg/atoms/weighted_atoms.py: l1norm, supnorm"]}
{"id": "C24", "title": "Every linear operator built from the affine combinators has the right adjoint", "statement": "<T.linear_map(x), y> = <x, T.adjoint_map(y)> for every transform assembled from matrices, diagonal, selector, reshape, identity, scalar_multiply, composition, affine_sum, vstack, hstack, product, adjoint, residual, add_intercept, centering, normalize.", "quantifier": "all expression trees of combinators, all x,y", "why_tests_cant": "Unbounded nesting of combinators.", "anchors": ["regreg/affine/__init__.py"]}
{"id": "C25", "title": "affine_map is linear_map plus a constant", "statement": "T.affine_map(x) = T.linear_map(x) + T.affine_map(0) for every transform (composition, sum, stacks, scalar multiples), and linear_map is linear.", "quantifier": "all expression trees, all x", "why_tests_cant": "Unbounded nesting; offsets may be None at any node.", "anchors": ["regreg/affine/__init__.py: affine_transform.affine_map, composition, affine_sum, vstack, hstack, product, residual, scalar_multiply"]}
{"id": "C26", "title": "affine_smooth applies the chain rule", "statement": "affine_smooth(f, T).smooth_objective(x,'both') returns (f(Tx), T' grad f(Tx)); if the atom's 'grad' is the derivative of 'func' then so is the composed one's; coef scaling multiplies both.", "quantifier": "all differentiable atoms, all affine maps, all x and coef>=0", "why_tests_cant": "Derivative is a limit statement at every point.", "anchors": ["regreg/smooth/__init__.py: affine_smooth.smooth_objective, smooth_atom.scale"]}
{"id": "C27", "title": "smooth sum adds objectives and gradients", "statement": "sum([f1..fk], weights).smooth_objective equals the weighted sum of values and gradients; construction is rejected for negative weights or wrong lengths.", "quantifier": "any number of atoms and weights, all x", "why_tests_cant": "Unbounded list of atoms.", "anchors": ["regreg/smooth/__init__.py: sum"]}
{"id": "C28", "title": "'grad' is the derivative of 'func' for every loss", "statement": "For quadratic/gaussian, logistic, poisson, huber, huber_svm, cox and multinomial losses, smooth_objective(x,'grad') is the gradient of x -> smooth_objective(x,'func') at every x.", "quantifier": "all x, all data accepted by the constructor, all case weights>=0", "why_tests_cant": "A derivative at every real point; data dependent branches.", "anchors": ["regreg/smooth/glm.py: gaussian_loglike, poisson_loglike, huber_loss", "regreg/smooth/binary.py: logistic_loglike, huber_svm", "regreg/smooth/cox.py: cox_loglike", "regreg/smooth/mglm.py: multinomial_loglike", "regreg/smooth/quadratic.py"]}
{"id": "C29", "title": "Losses are convex", "statement": "Each of the losses above is a convex function of the linear predictor for every accepted data set, so the first-order conditions the solver checks are sufficient.", "quantifier": "all data, all pairs of points", "why_tests_cant": "Inequality over all pairs and all convex combinations.", "anchors": ["regreg/smooth/glm.py", "regreg/smooth/binary.py", "regreg/smooth/cox.py"]}
{"id": "C30", "title": "hessian is the derivative of the gradient", "statement": "For gaussian, logistic, poisson and cox losses, hessian / hessian_mult is the derivative of 'grad'.", "quantifier": "all x and data", "why_tests_cant": "Derivative at every point.", "anchors": ["regreg/smooth/glm.py: gaussian_loglike.hessian, poisson_loglike.hessian", "regreg/smooth/binary.py: logistic_loglike.hessian", "regreg/smooth/cox.py: hessian_mult"]}
{"id": "C31", "title": "Evaluating an objective has no side effects", "statement": "Evaluating smooth_objective of a glm any number of times at any points returns the same value for the same argument: evaluation history is irrelevant, caller-owned arrays are not modified.", "quantifier": "all finite sequences of evaluations", "why_tests_cant": "History dependent.", "anchors": ["regreg/smooth/glm.py: glm.smooth_objective, gaussian_loglike.smooth_objective, poisson_loglike.smooth_objective", "regreg/smooth/binary.py"]}
{"id": "C32", "title": "copy preserves the objective; subsample restricts it", "statement": "copy(loss) has the same objective at every point as loss; loss.subsample(idx) is the loss restricted to the selected cases (with existing case weights), successive subsampling intersects the index sets, and the original is unchanged.", "quantifier": "all losses, data, index sets, all sequences of copy/subsample", "why_tests_cant": "History dependent and over all points.", "anchors": ["regreg/smooth/glm.py: __copy__, subsample", "regreg/smooth/binary.py: __copy__, subsample", "regreg/smooth/mglm.py: subsample", "regreg/smooth/cox.py: subsample"]}
{"id": "C33", "title": "FISTA bookkeeping invariants", "statement": "In every run of FISTA.fit: inverse step size stays positive; a backtracking step is accepted only if the quadratic upper bound holds at the accepted point; the momentum weight is >= 1; the returned history has at most max_its entries; with monotonicity_restart the objective of the kept iterate never increases beyond the relative slack 1e-10.", "quantifier": "all composite problems, all option settings, all iteration counts", "why_tests_cant": "Unbounded number of iterations and data-dependent restarts.", "anchors": ["regreg/algorithms.py: FISTA.fit, FISTA.update, FISTA.backtrack"]}
{"id": "C34", "title": "Proximal-gradient fixed points are exactly the minimisers", "statement": "For a convex differentiable smooth part and any atom with a correct prox, x is a minimiser of the composite objective iff the proximal step at x (any step L>0) returns x.", "quantifier": "all convex problems and all L>0", "why_tests_cant": "Characterisation over all problems.", "anchors": ["regreg/problems/composite.py: composite.proximal_step", "regreg/algorithms.py", "regreg/problems/simple.py: simple_problem.proximal"]}
{"id": "C35", "title": "A prox step that passes the backtracking test decreases the objective", "statement": "If the quadratic upper bound holds at the proximal point z of x with step L, then F(z) <= F(x) - L/2||z-x||^2, and for convex problems F(z)-F(u) <= L/2(||x-u||^2-||z-u||^2) for every u, so k accepted plain steps with constants <= L are within L||x0-u||^2/(2k) of optimal.", "quantifier": "all problems, all iteration counts k", "why_tests_cant": "Unbounded iterations, all comparison points u.", "anchors": ["regreg/algorithms.py: FISTA.fit, backtrack"]}
{"id": "C36", "title": "simple_problem.solve leaves the problem's quadratic as it was", "statement": "After solve(quadratic=q) returns, problem.quadratic is what it was before, whatever q was, for any sequence of solves; the objective minimised in each solve is smooth + atom + problem quadratic + q.", "quantifier": "all sequences of solves incl. failing ones", "why_tests_cant": "History dependent, includes exceptional exits.", "anchors": ["regreg/problems/simple.py: simple_problem.solve, nonsmooth_objective, proximal"]}
{"id": "C37", "title": "separable problems: the joint prox is the blockwise prox", "statement": "separable.proximal returns the minimiser of the sum of atoms on disjoint blocks; overlapping selectors are rejected by the constructor.", "quantifier": "all partitions/selectors, all quadratics", "why_tests_cant": "All index sets, all candidates.", "anchors": ["regreg/problems/separable.py: has_overlap, separable.proximal"]}
{"id": "C38", "title": "BFGS update satisfies the secant equation and stays positive definite", "statement": "After every accepted update of the quasi-Newton matrix the secant equation holds and positive definiteness is preserved for the whole history.", "quantifier": "all histories of (s,y) pairs with positive curvature", "why_tests_cant": "Induction over unbounded histories.", "anchors": ["regreg/problems/newton.py: quasi_newton.update_hessian"]}
{"id": "C39", "title": "KKT check certifies optimality of the lasso path", "statement": "If lasso_path.check_KKT at tol=0 flags no active and no inactive coordinate then solution minimises loss + lam*sum w_i|b_i| (convex loss, grad its gradient); with tol>0 the suboptimality is bounded by tol times lam*sum w_i(|b_i|+|u_i|)-type terms.", "quantifier": "all weights incl. zeros, all solutions, all convex losses", "why_tests_cant": "Global optimality is over all u.", "anchors": ["regreg/paths/lasso.py: _check_KKT, lasso_path.check_KKT"]}
{"id": "C40", "title": "strong_rules only discards what it re-checks", "statement": "Every solution appended by strong_rules for a lagrange value whose loop ended without the convergence warning passed the KKT screen on all groups, whatever the strong set was: screening can not lose an active variable silently.", "quantifier": "all path objects (arbitrary subproblem solvers), all lagrange sequences, any number of tries", "why_tests_cant": "Loop with unbounded data dependent behaviour.", "anchors": ["regreg/paths/__init__.py: strong_rules"]}
{"id": "C41", "title": "basil solves lagrange values in order and terminates", "statement": "basil appends solutions for the lagrange sequence in order without gaps or repetitions, and terminates when the subproblem solver is exact on its candidate set.", "quantifier": "all problems, step sizes, decreasing sequences", "why_tests_cant": "While-True loop; termination over all inputs.", "anchors": ["regreg/paths/basil.py: basil, basil_inner_loop"]}
{"id": "C42", "title": "Cross-validation folds partition the cases evenly", "statement": "For every n and integer cv>=1 and every shuffle, the folds' test sets are disjoint, cover all n cases, train is the complement, and fold sizes differ by at most one.", "quantifier": "all n, cv, permutations", "why_tests_cant": "All n and all shuffles.", "anchors": ["regreg/paths/cross_validate.py: cross_validate, cross_validate_alt"]}
{"id": "C43", "title": "The first lagrange value is the null threshold", "statement": "default_lagrange_sequence returns a strictly decreasing sequence starting at lagrange_max/alpha, and 0 (or the null solution) solves the penalised problem exactly for lagrange >= lagrange_max.", "quantifier": "all null gradients, weights, nstep", "why_tests_cant": "Optimality over all candidates for all lagrange above the threshold.", "anchors": ["regreg/paths/__init__.py: default_lagrange_sequence", "regreg/paths/lasso.py: _get_lagrange_max, _strong_set"]}
{"id": "C44", "title": "Trend-filter operators", "statement": "difference_transform annihilates polynomials of degree < order at distinct sorted knots; trend_filter_inverse is a right inverse of the first order trend filter with mean-zero output and its adjoint_map is its transpose.", "quantifier": "all knots, all n", "why_tests_cant": "All sizes and real knots.", "anchors": ["regreg/affine/fused_lasso.py: difference_transform, trend_filter, trend_filter_inverse"]}
{"id": "C45", "title": "Multiscale transform adjoint", "statement": "multiscale.linear_map returns scaled interval means and adjoint_map is its transpose for every size and minsize.", "quantifier": "all p, minsize, x, y", "why_tests_cant": "All sizes.", "anchors": ["regreg/affine/multiscale.py: multiscale"]}
{"id": "C46", "title": "2D image difference operator has one row per lattice edge", "statement": "formD(m,n) has exactly the grid-graph edges as rows, each once with +-1 entries.", "quantifier": "all m,n>=1", "why_tests_cant": "All sizes.", "anchors": ["regreg/affine/image2d.py: formD"]}
{"id": "C47", "title": "normalize centers and scales", "statement": "normalize(X).linear_map applied to any vector has mean zero (center=True) and every normalised column has the requested sum of squares; adjoint_map is its transpose.", "quantifier": "all X, all option combinations", "why_tests_cant": "All matrices.", "anchors": ["regreg/affine/__init__.py: normalize"]}
{"id": "C48", "title": "Smoothed atoms have gradient equal to the dual maximiser", "statement": "For atom.smoothed(q) with q.coef>0, smooth_objective value is sup_u <x,u> - f*(u) - q(u), its gradient is the maximiser, and the gradient is 1/coef Lipschitz.", "quantifier": "all atoms with a correct prox, all x", "why_tests_cant": "Supremum and Lipschitz bound over all points.", "anchors": ["regreg/problems/composite.py: smooth_conjugate", "regreg/atoms/__init__.py: atom.smoothed"]}
{"id": "C49", "title": "sklearn wrapper column conventions", "statement": "_check_y_arg returns response, case weights and offset from the documented columns for each flag combination; score uses sample_weight.", "quantifier": "all flag combinations, all y with >=1..3 columns", "why_tests_cant": "All sizes.", "anchors": ["regreg/sklearn/base.py: base_mixin._check_y_arg, score"]}
{"id": "C50", "title": "gauge bisection brackets the dual norm", "statement": "The dual gauge computed by bisection (sparse group penalties) returns a value within the stated relative tolerance of the true gauge.", "quantifier": "all vectors and weights", "why_tests_cant": "Unbounded doubling/halving iterations.", "anchors": ["regreg/atoms/sparse_group_lasso.py: _gauge_function_dual", "regreg/atoms/sparse_group_block.py: _gauge_function_dual"]}
{"id": "C51", "title": "Cox partial likelihood is what the C loops compute", "statement": "_cox_objective computed through the ordering/rank buffers equals sum_i delta_i w_i (log sum_{T_j>=T_i} w_j e^{eta_j} - eta_i) for every tie pattern and every valid ordering; it does not depend on how argsort broke ties.", "quantifier": "all n, event times with ties, censoring, positive weights, all orderings", "why_tests_cant": "Index arithmetic over all tie patterns.", "anchors": ["regreg/smooth/cox_fns.c", "regreg/smooth/cox_utils.pyx: cox_objective, cox_gradient, cox_hessian", "regreg/smooth/cox.py"]}
{"id": "C52", "title": "power_L never overestimates", "statement": "power_L(T) returns a value that is at most the squared operator norm of T after any number of iterations.", "quantifier": "all matrices, all starting vectors, all iteration counts", "why_tests_cant": "All iteration counts.", "anchors": ["regreg/affine/__init__.py: power_L"]}
{"id": "C53", "title": "Reading a selector/posneg result is not disturbed by later calls", "statement": "Arrays returned by linear_map/adjoint_map/smooth_objective keep their values when the same object is evaluated again.", "quantifier": "all sequences of calls", "why_tests_cant": "History dependent (aliasing of internal buffers).", "anchors": ["regreg/affine/__init__.py: selector, posneg", "regreg/smooth/cox.py", "regreg/smooth/glm.py: stacked_loglike"]}
{"id": "C54", "title": "Assigning an offset takes effect", "statement": "After composite.offset = v, evaluation uses v (or no offset when v is identically zero), whatever the previous offset was.", "quantifier": "all previous offsets, all v", "why_tests_cant": "History dependent: depends on the previous assignment.", "anchors": ["regreg/problems/composite.py: set_offset, get_offset, apply_offset"]}
{"id": "C55", "title": "Group LASSO epigraph cones are projected on", "statement": "group_lasso_epigraph / its polar / the dual epigraph and its polar return the Euclidean projection of every point onto the corresponding cone.", "quantifier": "all group structures, all weights >= 1e-20, all points", "why_tests_cant": "Every point in every dimension; root finding over the group norms.", "anchors": ["regreg/atoms/group_lasso.py: group_lasso_epigraph, group_lasso_epigraph_polar, group_lasso_dual_epigraph, group_lasso_dual_epigraph_polar"]}
{"id": "C56", "title": "Mixed LASSO penalty: prox, dual and feasibility", "statement": "mixed_lasso with l1, unpenalised, nonnegative, nonnegative-l1 and group blocks: lagrange_prox is the proximal map of the stated penalty, the dual bound_prox is the projection on its dual ball, seminorm reports infeasible points.", "quantifier": "all assignments of coordinates to blocks, all weights, all points", "why_tests_cant": "All block structures.", "anchors": ["regreg/atoms/mixed_lasso.py: mixed_lasso, mixed_lasso_dual", "regreg/atoms/mixed_lasso_cython.pyx: mixed_lasso_lagrange_prox, mixed_lasso_dual_bound_prox, seminorm_mixed_lasso"]}
{"id": "C57", "title": "Block norms of matrices: prox, dual pairs and parameters", "statement": "For l1_l2, linf_l2, l1_l1, linf_linf (and block_sum, block_max): lagrange_prox is the proximal map and bound_prox the projection for the stated norm of the matrix, the paired classes are dual norms, constraint accepts exactly the ball up to tolerance, and conjugate carries the current parameter.", "quantifier": "all shapes, all matrices including ones with zero rows, all parameters, all histories of parameter assignments", "why_tests_cant": "Every matrix; zero rows are a measure-zero set random tests never produce.", "anchors": ["regreg/atoms/block_norms.py: l1_l2, linf_l2, l1_l1, linf_linf, block_sum, block_max"]}
{"id": "C58", "title": "Sparse group penalty of matrices and its dual norm", "statement": "sparse_group_block.lagrange_prox is the proximal map of l1_weight*sum|B_ij| + l2_weight*sum||B_i||, the dual's bound_prox is the projection on the dual ball, the dual seminorm is the dual norm up to the requested tolerance, constraint accepts the projected points, and terms sum to the seminorm.", "quantifier": "all shapes, all matrices, all nonnegative weights", "why_tests_cant": "Every matrix and a bisection with data-dependent length.", "anchors": ["regreg/atoms/sparse_group_block.py: sparse_group_block, sparse_group_block_dual, _lagrange_prox, _inside_set, _gauge_function_dual"]}
{"id": "C59", "title": "Nuclear norm and operator norm: prox, projection, dual pair", "statement": "nuclear_norm and operator_norm: for every matrix and every singular value decomposition LAPACK may return, seminorm is the norm, lagrange_prox is the proximal point, bound_prox is the projection on the ball, constraint accepts exactly the ball up to tolerance, and the two norms are dual.", "quantifier": "all matrix shapes, all matrices (repeated or zero singular values included), all valid decompositions", "why_tests_cant": "Every matrix, every choice of singular vectors.", "anchors": ["regreg/atoms/svd_norms.py: nuclear_norm, operator_norm"]}
{"id": "C60", "title": "Epigraph cones of the nuclear and operator norms", "statement": "cone_prox of nuclear_norm_epigraph, operator_norm_epigraph and their polars is the projection on the cone, the conjugate pairs are polar cones, and constraint accepts exactly the cone up to tolerance.", "quantifier": "all matrices, all heights, all valid decompositions", "why_tests_cant": "Every point of the space.", "anchors": ["regreg/atoms/svd_norms.py: nuclear_norm_epigraph, nuclear_norm_epigraph_polar, operator_norm_epigraph, operator_norm_epigraph_polar"]}
{"id": "C61", "title": "Subspace constraints: projections, polar pair, conjugates", "statement": "For a basis with orthonormal rows, projection.cone_prox is the Euclidean projection on the row span, projection_complement.cone_prox on its orthogonal complement; the two sets are polar, each class's conjugate is the other with the same basis and its projection is the residual, and constraint accepts exactly the points of relative distance below tol to the set.", "quantifier": "all orthonormal bases of all dimensions, all points", "why_tests_cant": "Every basis and every point.", "anchors": ["regreg/atoms/linear_constraints.py: projection, projection_complement"]}
{"id": "C62", "title": "gengrad minimises the objective of its problem", "statement": "gengrad(problem, lipschitz) takes generalized gradient steps whose fixed points are the minimisers of the problem's objective, converges at the rate lipschitz*||x0-u||^2/(2k) when lipschitz bounds the curvature of the smooth part, and returns a visited point at which its stopping test holds or max_its was reached.", "quantifier": "all convex composite problems, all starts, tolerances, iteration limits and both stopping rules", "why_tests_cant": "Every problem and every number of iterations.", "anchors": ["regreg/problems/simple.py: gengrad, simple_problem.solve, simple_problem.smooth, simple_problem.nonsmooth"]}
{"id": "C63", "title": "nesta and tfocs: smoothing with moving centers converges to a solution", "statement": "nesta and tfocs, with exactly solved smoothed problems: the center never moves away from any solution, a run with coefficient stopping ends by its test after a number of passes that depends only on problem, start and tolerance, a pass that reproduces its center is at a solution, the objective of a pass exceeds the optimum by at most eps*diameter*movement, and the returned dual (nesta) and primal (tfocs) are feasible.", "quantifier": "all convex problems F(x)+h(Dx+a) with a solution, all lists of positive smoothing constants, all starts and tolerances", "why_tests_cant": "Every problem, every schedule of smoothing constants, every number of passes.", "anchors": ["regreg/problems/simple.py: nesta, tfocs"]}
{"id": "C64", "title": "ADMM converges to a solution of loss plus penalty of the transform", "statement": "admm_problem(loss, atom, transform, rho).solve(niter), with exactly solved inner problems: a state left unchanged by a pass solves minimise loss(x)+atom(Dx+a); from any start the distance to every solution does not increase in the norm ||dual||^2/rho + rho||atom_coefs||^2, the constraint violation tends to zero and the objective to the optimal value.", "quantifier": "all convex losses and atoms, all transforms, offsets, positive rho, all starts and numbers of passes", "why_tests_cant": "Every problem and every number of passes; the test in the repository uses the identity transform only.", "anchors": ["regreg/problems/admm.py: admm_problem"]}
{"id": "C65", "title": "Block transforms, tensorized transforms and factored matrices are adjoint pairs", "statement": "block_columns and block_rows apply the i-th transform to the i-th column or slice and place the result in its slice or column; adjoint_map is the adjoint of linear_map for the matrix inner product and affine_map is linear_map plus its value at zero. tensorize applies a matrix transform to every column, offset included. factored_matrix with factors U, D, VT multiplies by U diag(D) VT, rank one included.", "quantifier": "all numbers of blocks, all block sizes, all transforms whose selectors do not repeat a position, all arguments", "why_tests_cant": "Every number and size of blocks and every argument.", "anchors": ["regreg/affine/block_maps.py: block_columns, block_rows", "regreg/affine/__init__.py: tensorize", "regreg/affine/factored_matrix.py: factored_matrix"]}
{"id": "C66", "title": "Low rank nuclear and operator norms: truncation does not change the result", "statement": "compute_iterative_svd ends without exception and returns leading singular triplets, stopping only when the rest is negligible or the stopping rule accepts; the factored nuclear_norm and operator_norm atoms, which use it, return exactly the proximal point or projection of the untruncated problem, for every state left by earlier calls; factored_matrix(X).X is X.", "quantifier": "all matrix shapes, all matrices, all parameters, all initial ranks and call histories", "why_tests_cant": "Whether the truncation point suffices depends on the spectrum, the parameter and the history of earlier calls.", "anchors": ["regreg/affine/factored_matrix.py: compute_iterative_svd, partial_svd, factored_matrix, nuclear_norm, operator_norm"]}
{"id": "C67", "title": "Penalties of an affine function of the coefficients", "statement": "cls.linear(D, ...), cls.affine(D, alpha, ...) and cls.shift(alpha, ...) of the seminorm classes build penalties whose value at x is h(Dx+alpha) plus the quadratic at Dx (h the penalty or the indicator of the bound), whose dual is a transform and an atom representing that function, and whose smoothed version is its Moreau smoothing with a correct gradient.", "quantifier": "all seven seminorm classes, both forms, all operators without own offset, all offsets, quadratics and points", "why_tests_cant": "Two sign conventions for offsets have to cancel for every operator, offset and mode.", "anchors": ["regreg/atoms/__init__.py: affine_atom", "regreg/atoms/seminorms.py: seminorm.linear, seminorm.affine, seminorm.shift"]}
{"id": "C68", "title": "Solving through the dual returns the primal solution", "statement": "dual_problem(f_conjugate, transform, atom).solve() returns the minimiser of f(x)+<u,Dx> for the dual point u of its last gradient evaluation; if u solves the dual problem this is the unique solution of f(x)+H(x), the optimal values are negatives of each other, and the squared distance to the solution is bounded by the dual suboptimality; stacked_dual combines any number of penalties correctly.", "quantifier": "all strongly convex f with a smooth conjugate, all transforms and convex dual atoms, all numbers of penalties, all sequences of evaluations by the solver", "why_tests_cant": "Every problem and every history of evaluations; tests compare a few problems numerically.", "anchors": ["regreg/problems/dual_problem.py: dual_problem, stacked_dual", "regreg/smooth/__init__.py: affine_smooth"]}
{"id": "C69", "title": "A container is the sum of its members", "statement": "container(loss_1, ..., penalty_1, ...): smooth_objective and objective are the sums over all members, quadratics included; proximal(q) is the minimiser of q plus the penalties plus the quadratics of container and losses, up to the square root of the accuracy of the inner dual solve; solve(quadratic=q) minimises the sum plus q and leaves the container as it was; the constructor accepts any nonempty combination of losses and penalties.", "quantifier": "all numbers of losses and penalties, all operators inside the penalties, all quadratics and points, all accuracies of the inner solver", "why_tests_cant": "Every combination of members; the inner problem is solved through the dual, so correctness depends on constants that must match for every quadratic.", "anchors": ["regreg/problems/container.py: container"]}
{"id": "C70", "title": "conjugate objects: value, gradient and restored quadratic after every history of calls", "statement": "conjugate(atom, quadratic, negate).smooth_objective(x) returns in its three modes the value of the conjugate of atom + quadratic at x (at -x with negate) and the point attaining the supremum (its negative with negate), which is the gradient; this holds after every sequence of earlier evaluations, the quadratic passed by the caller has its original fields after each, and the constructor refuses exactly the sums without quadratic coefficient.", "quantifier": "all atoms solved exactly by their inner solver, all seminorm classes in both forms, all quadratics, both values of negate, all call histories", "why_tests_cant": "The caller's quadratic is modified and restored at every call; correctness after every history and at every point cannot be sampled.", "anchors": ["regreg/problems/conjugate.py: conjugate"]}
{"id": "C71", "title": "smooth_conjugate objects: smooth function, Lipschitz constant, double conjugate; solve and proximal of a loss", "statement": "smooth_conjugate(atom, q).smooth_objective returns the conjugate of atom + q and its gradient, which is Lipschitz with the stored constant; its conjugate is an atom denoting atom + q again, and conjugating that returns the same function. For a loss, proximal(q) minimises quadratic + q, and solve(quadratic=q) minimises loss + quadratic + q, reports the optimal value and leaves the loss as it was.", "quantifier": "all seminorm classes in both forms with all offsets and quadratics, all smoothing quadratics with positive total coefficient, all losses and exact solvers, all points", "why_tests_cant": "Every atom, quadratic and point.", "anchors": ["regreg/problems/composite.py: smooth_conjugate, smooth.solve, smooth.proximal"]}
{"id": "C72", "title": "Probit and complementary log-log likelihoods", "statement": "probit_loglike and cloglog_loglike: 'func' is the weighted negative binomial log-likelihood for the normal and the complementary log-log inverse link at the linear predictor minus the offset, 'grad' its gradient, 'both' the pair; the loss is convex; hessian is its second derivative; mean_function is the inverse link; copies answer alike and subsamples drop the cases outside the index set.", "quantifier": "all successes, trials, coefficients, weights, offsets and linear predictors", "why_tests_cant": "Every linear predictor, including the tails where the code clips.", "anchors": ["regreg/smooth/binary.py: probit_loglike, cloglog_loglike"]}
{"id": "C73", "title": "The objective of a log-likelihood loss is half its deviance", "statement": "The objective of logistic_loglike, probit_loglike, cloglog_loglike and poisson_loglike built without a quadratic is coef times half the deviance: nonnegative, and zero at the saturated fit; with a quadratic, plus that quadratic.", "quantifier": "all data, coefficients, weights, quadratics and linear predictors", "why_tests_cant": "Every data set, weight vector and fit.", "anchors": ["regreg/smooth/binary.py: logistic_loglike.__init__, probit_loglike.__init__, cloglog_loglike.__init__", "regreg/smooth/glm.py: poisson_loglike.__init__"]}
{"id": "C74", "title": "The group lasso path", "statement": "group_lasso_path: a candidate that passes check_KKT is optimal up to an explicit multiple of the tolerance, every exact solution passes, the strong rule discards no group that is needed while the gradient moves slowly enough, the subproblem is the full problem restricted to the candidate groups, and strong_rules on such a path appends near-optimal solutions unless it warns.", "quantifier": "all group structures, weights (zero allowed), designs, convex losses, elastic net parameters, lagrange sequences and subproblem solvers", "why_tests_cant": "Every group structure, loss and history of screening rounds.", "anchors": ["regreg/paths/group_lasso.py: group_lasso_path, _check_KKT, _strong_set, _restricted_problem", "regreg/paths/__init__.py: strong_rules, subsample_columns"]}
{"id": "C75", "title": "The sparse group lasso path", "statement": "sparse_group_lasso_path: every group that check_KKT accepts as inactive has its gradient in the dual ball of the group's penalty up to the tolerances, so an accepted zero vector is near-optimal and an optimal zero vector is accepted; the strong rule discards no needed group while the gradient moves slowly enough; the subproblem is the full problem restricted to the candidate groups; subsampling keeps the penalty; unpenalised groups are recognised.", "quantifier": "all group structures, weights, designs, convex losses, lagrange parameters and tolerances", "why_tests_cant": "Every group structure, gradient and outcome of the bisection.", "anchors": ["regreg/paths/sparse_group_lasso.py: sparse_group_lasso_path, _check_KKT, _strong_set, _restricted_problem, unpenalized, subsample", "regreg/atoms/sparse_group_lasso.py: _gauge_function_dual_strong, _inside_set_strong"]}
{"id": "C76", "title": "The multi-response sparse group paths", "statement": "sparse_group_common_path and sparse_group_block_path: every row that check_KKT accepts as inactive has its gradient in the dual ball of the row's penalty up to the tolerances, an accepted zero matrix is near-optimal and an optimal zero matrix is accepted; the strong rule discards no needed row while the gradient moves slowly enough; l1_alpha mixes the two penalties in the path and in its subsamples alike.", "quantifier": "all matrices of coefficients and gradients, weights, lagrange parameters, tolerances and orders of ties in the ranking", "why_tests_cant": "Every matrix and every tie order of argsort.", "anchors": ["regreg/paths/sparse_group_block.py: sparse_group_common_path, sparse_group_block_path, _check_KKT, _strong_set, subsample"]}
{"id": "C77", "title": "Stacked losses", "statement": "stacked_loglike: the value is coef times the sum of the stacked losses on consecutive blocks of the argument, weighted by the case weights; the returned gradient is its gradient; it is convex if the losses are; results do not depend on earlier evaluations and the caller's arrays are left alone; subsample drops the cases outside the index set; each stacked_* factory builds the loss it names.", "quantifier": "all numbers and sizes of losses, offsets, coefficients, weights, arguments and histories of calls", "why_tests_cant": "Every split of the argument into blocks and every history of evaluations.", "anchors": ["regreg/smooth/glm.py: stacked_loglike", "regreg/paths/sparse_group_block.py: stacked_gaussian, stacked_cox, stacked_logistic, stacked_probit, stacked_cloglog, stacked_poisson, stacked_huber, stacked_huber_svm"]}
{"id": "C78", "title": "Warm-started paths", "statement": "warm_start returns one solution and one deviance ratio per lagrange parameter, in order; each problem is started at the previous solution; with an accurate solver each row is optimal for the problem of its own parameter, whatever the initial solution, and equals the problem strong_rules solves; along a decreasing sequence the loss does not increase; the deviance ratios start at 0, do not decrease and stay in [0, 1].", "quantifier": "all path objects, solvers, sequences of lagrange parameters and initial solutions", "why_tests_cant": "Every sequence, start and solver.", "anchors": ["regreg/paths/__init__.py: warm_start", "regreg/paths/lasso.py: lasso_path.enet_loss, restricted_penalty"]}
{"id": "C79", "title": "Quadratic losses: factory methods and conjugates", "statement": "quadratic_loss(Q, coef, offset, quadratic), fromarray, diagonal, squared_transform, shift, affine and linear give c/2 (r)'Q(r) at the documented residual r (x minus the offset; Xx plus the offset for affine; Xx minus the offset for linear) with its true gradient, and objective adds the quadratic passed; a negative coef and keywords other than Q and Qdiag raise ValueError; conjugate is the Fenchel conjugate of loss plus quadratic with the maximiser as gradient, dual pairs it with the transform; cholesky(Q) is multiplication by the inverse of Q.", "quantifier": "all sizes, quadratic forms, transforms, coefficients, offsets, quadratics, keyword lists and points", "why_tests_cant": "Every matrix, offset and point; suprema over R^n.", "anchors": ["regreg/smooth/quadratic.py: quadratic_loss, quadratic_loss.fromarray, squared_transform, diagonal, get_conjugate, cholesky", "regreg/smooth/__init__.py: smooth_atom.affine, linear, shift, acceptable_init_args, affine_smooth.dual"]}
{"id": "C80", "title": "Quasi-Newton runs: objective, search direction, recorded values, returned point", "statement": "quasi_newton.objective is loss plus penalty plus the loss' quadratic plus the quadratic, infinite at an infeasible point. With an exact inner solver the search direction is a descent direction with decrease at least half the step times d'Bd, it vanishes exactly at the minimisers, and the inner solution is near optimal when it is near the current point. The last entry of solver_results is the objective at the last line search point, the entries do not increase when the line search is never worse than a zero step; the returned point is feasible and minimises the second order model at a visited state.", "quantifier": "all losses with a gradient, convex penalties, feasible sets, quadratics of nonnegative coefficient, initial Hessians, starting points, iteration counts, line searches", "why_tests_cant": "Every run length, line search and loss; the claims are about real functions and all small steps.", "anchors": ["regreg/problems/newton.py: quasi_newton.objective, nonsmooth_objective, solve_inner_loop, solve, backtrack"]}
{"id": "C81", "title": "Mixed lasso: screening rule, optimality check, largest useful lagrange parameter", "statement": "mixed_lasso.check_KKT reports no failure at a minimiser of loss + lagrange * penalty; a vector it accepts is optimal up to an explicit slack when also the gradient vanishes at unpenalised coordinates and is opposite to the solution on active groups. mixed_lasso.strong_set discards only coordinates that are zero at the next lagrange parameter when the gradient moves with at most the assumed slope, and never an unpenalised one; group_lasso.strong_set likewise for groups. The dual seminorm of the gradient at the null solution is the smallest lagrange parameter at which the null solution is optimal.", "quantifier": "all differentiable losses (convex where a sufficient condition is stated), all assignments of coordinates to kinds and groups, all nonnegative weights, all lagrange parameters, tolerances and slopes, all vectors", "why_tests_cant": "Optimality is a statement about every competitor and every loss; the counterexamples lie where weights exceed one, at unpenalised coordinates and positive part coordinates.", "anchors": ["regreg/atoms/mixed_lasso.py: strong_set, check_KKT", "regreg/atoms/mixed_lasso_cython.pyx: strong_set_mixed_lasso, check_KKT_mixed_lasso, seminorm_mixed_lasso_dual", "regreg/atoms/group_lasso.py: strong_set"]}
{"id": "C82", "title": "Mixed lasso path: accepted solutions, work per step, cached attributes, reported values", "statement": "mixed_lasso_path.main appends one solution per lagrange parameter after at most ten subproblems each; a solution appended without the warning passes check_KKT on all coefficients and, with an exact subproblem solver and a convex loss, its objective is at most that of any feasible competitor plus one hundredth of the competitor's penalty term; ever_active contains the support of every accepted solution. lagrange_max is the dual seminorm of the gradient at the null solution when it is read first. Rows of beta are on the original scale, df counts the active coefficients, and elastic_net can be read any number of times (these three fail, as does lagrange_max when null_solution is read first).", "quantifier": "all losses, penalty structures, weights, lagrange sequences of any length, subproblem solvers, starting solutions, sequences of property reads", "why_tests_cant": "Every solver behaviour, sequence length and order of property reads; optimality quantifies over all competitors.", "anchors": ["regreg/paths/mixed_lasso.py: mixed_lasso_path.main, grad, elastic_net, null_solution, lagrange_max, restricted_problem, solve_subproblem"]}
{"id": "C83", "title": "Scores, probabilities and labels of the binary, Huber, Cox and multinomial estimators", "statement": "The deviance score of logistic, probit and complementary log-log regression is minus twice the weighted binomial negative log-likelihood of X.dot(coefs) - offset, mean_deviance is that over the number of observations, and both agree with the loss fit minimises; R2 is 0 for the best constant model and at most 0 for any constant. predict_proba is the model probability and the label is True exactly when it exceeds one half; the multinomial label maximises the fitted probability. Huber and Cox scores are minus the loss and minus twice the negative log partial likelihood. (Parts fail: see the theorems ending in _fails.)", "quantifier": "all families, designs, coefficients, responses (binary or successes and trials), case weights, sample weights, offsets, constant predictors", "why_tests_cant": "Real valued data of any size and every constant competitor; a test sees a few arrays.", "anchors": ["regreg/sklearn/logistic.py: sklearn_logistic, sklearn_logistic_classifier", "regreg/sklearn/probit.py", "regreg/sklearn/cloglog.py", "regreg/sklearn/huber.py: sklearn_huber", "regreg/sklearn/cox.py: sklearn_cox", "regreg/sklearn/multinomial.py: predict"]}
{"id": "C84", "title": "What the penalised estimators fit", "statement": "fit of an estimator minimises, from the given start and with the given solver arguments, the loss plus (1 - enet_alpha) * lagrange * penalty plus enet_alpha * lagrange / 2 * ||beta||^2, where lagrange is that of the atom built from the score at zero; it returns whenever the gradient of the loss is Lipschitz; and when (1 - enet_alpha) * lagrange is at least the dual norm of the score at zero the fitted coefficients are exactly zero. (Parts fail: unpenalised coefficients, atoms with a quadratic of their own under the elastic net, and the elastic net at the dual norm itself.)", "quantifier": "all losses with a gradient, penalties with a correct proximal map, penalty parameters, enet_alpha in [0, 1], starts and solver arguments", "why_tests_cant": "The null model must come out exactly zero for every data set and solver setting; tests call fit on a few arrays and compare nothing.", "anchors": ["regreg/sklearn/base.py: lagrange_mixin.fit, _construct_atom, _fit_null_soln, base_mixin.fit", "regreg/problems/simple.py: simple_problem.solve"]}
{"id": "C85", "title": "check_subgradient verifies proximal maps", "statement": "check_subgradient(atom, z) of a seminorm returns two equal numbers at every center, in both modes (the seminorm of the proximal point, or the dual seminorm of the residual); conversely, when the two numbers agree the point returned by proximal is the proximal point, up to the tolerance 1e-5 of the norm test. For a cone it returns (0, 0). (Parts fail: the parameter 0; the converse for positive_part and for cones.)", "quantifier": "all seminorm classes with a registered conjugate, modes, parameters, centers, offsets and quadratics of the atom; for the converse all points a proximal method could return", "why_tests_cant": "The two-value identity is what the project's own tests compare on random arrays; that it holds everywhere, and that agreement implies correctness, needs a proof.", "anchors": ["regreg/atoms/seminorms.py: seminorm.check_subgradient", "regreg/atoms/cones.py: cone.check_subgradient"]}
{"id": "C86", "title": "huberized_svm is the smoothed hinge loss", "statement": "huberized_svm(X, labels, eps) with eps > 0 and two labels is the convex function sum_i h_eps(y_i x_i'beta), h_eps the hinge loss smoothed on an interval of length eps and y_i the labels coded -1/+1 in increasing order; the gradient returned is its gradient. More than two labels, a negative coef or eps = 0 raise ValueError. It is the same function as glm.huber_svm(X, labels, eps). (Parts fail: glm.huber_svm differs for every eps other than 1; coef and offset are ignored; a sample with one label is coded +1 whatever the label.)", "quantifier": "all designs, label vectors, smoothing parameters, coefficients, offsets and parameter vectors", "why_tests_cant": "Equality of two functions at every parameter vector, and for every design, cannot be tested exhaustively.", "anchors": ["regreg/smooth/losses.py: huberized_svm", "regreg/smooth/binary.py: huber_svm", "regreg/atoms/__init__.py: affine_atom.smoothed"]}
{"id": "C87", "title": "Scores and probabilities of the Huber SVM and multinomial estimators", "statement": "For the Huber SVM and multinomial estimators the deviance score is minus the (weighted) loss of the predictions - smoothed hinge loss for the SVM, twice the negative log likelihood for the multinomial - and on the training data it is a negative multiple of the loss that fit minimises, with the same case weights and offset. R2 is at most 0 for a constant predictor that does not use the features. predict_proba of the multinomial classifier returns, for every observation, softmax probabilities adding to one. (Parts fail: SVM smoothing parameters other than 1; R2 of the SVM is positive for a constant predictor; R2 of the multinomial raises; the multinomial score ignores case weights; predict_proba raises or is wrong for more than one observation.)", "quantifier": "all designs, coefficients, responses, case weights, offsets, smoothing parameters and shapes", "why_tests_cant": "Equality of scores and losses for all data and shapes cannot be tested exhaustively.", "anchors": ["regreg/sklearn/huber_svm.py: sklearn_huber_svm", "regreg/sklearn/multinomial.py: sklearn_multinomial, sklearn_multinomial_classifier"]}
{"id": "C88", "title": "A penalised regression from the constructor to the answer", "statement": "Build a glm loss (least squares, Poisson, Huber, Huber SVM with smoothing 1) from a design, response, coefficient, offsets and case weights, combine it with a norm-type atom in lagrange or bound form by simple_problem, and call solve. The objective of the problem is the weighted loss of the linear predictors plus quadratics plus penalty; a point is a minimiser exactly when the proximal gradient step leaves it where it is; for the losses of bounded curvature solve returns from every start, feasible or not, with coefficients that obey the constraint and the value of the documented objective at them; without restarts the value misses the minimum by at most 2||x0-u||^2/(t(k+1)^2) after k recorded values; a start that is a solution is returned unchanged; and for the three norms a minimiser exists for every design.", "quantifier": "all designs, responses, weights, offsets, atoms of the seminorm family with their offset and quadratic, penalty and bound parameters, starts, and solver settings with backtracking", "why_tests_cant": "The chain loss - proximal map - problem - solver holds for all data and settings; tests run a few data sets and compare with another solver to some tolerance.", "anchors": ["regreg/problems/simple.py: simple_problem.__init__, objective, nonsmooth_objective, proximal, solve", "regreg/smooth/glm.py: glm", "regreg/atoms/seminorms.py: seminorm", "regreg/algorithms.py: FISTA.fit"]}
{"id": "C89", "title": "The multiscale change point statistic, its matrix and its tuning parameter", "statement": "SMUCE_stat with the default noise level returns, for a signal that is not constant, the largest standardised interval sum minus the length penalty sqrt(2 log(p/size)) over the intervals of the transform, and the first interval attaining it; it does not depend on location, scale or the scaling of the transform. form_matrix has as columns the centred, sqrt-length scaled interval indicators, so its transpose is the transform with scaling sqrt(sizes). choose_tuning_parameter returns the requested quantile of the statistics of the draws. Violated: a given sigma always raises, a constant signal gives nan, the call changes the scaling of the transform for good, and the sigma of choose_tuning_parameter has no effect.", "quantifier": "all lengths, interval lists, minimal sizes, scalings, signals, draws and quantiles", "why_tests_cant": "The maximum is over all intervals of all signals and the side effect shows only in a later call; a test fixes one signal and never reads the transform again.", "anchors": ["regreg/affine/multiscale.py: SMUCE_stat, choose_tuning_parameter, multiscale.form_matrix"]}
{"id": "C90", "title": "Any atom of the library in a penalised regression", "statement": "simple_problem(glm, atom).solve() works for every nonsmooth atom, not only the seven seminorms: with group_lasso, sparse_group_lasso, the weighted l1norm, slope, mixed_lasso, the cones, linear subspaces, the simplex, maximum, or a separable combination of such atoms on disjoint groups, each with any offset and any own quadratic of nonnegative coefficient, the objective reported is loss plus quadratics plus the documented penalty or constraint of x - offset; a vector solves the problem exactly when one proximal gradient step leaves it fixed; with a loss of bounded curvature solve returns from every start, misses the optimal value by at most O(1/k^2) after k iterations, and keeps a start that is already a solution. Violated: mixed_lasso takes its offset off twice when it reports its value, and the weighted l1norm with multiplier 0 and an infinite weight gives nan.", "quantifier": "all designs, responses, case weights, offsets, quadratics, atoms, groups, weights, multipliers and bounds, starts, solver settings with backtracking, tie orders of the sorts", "why_tests_cant": "Tests fit one data set with one or two atoms; the claim is about every pairing of a loss with an atom, and about separable atoms built recursively from others.", "anchors": ["regreg/problems/simple.py: simple_problem", "regreg/atoms/seminorms.py: seminorm.proximal, nonsmooth_objective", "regreg/atoms/cones.py: cone.proximal, nonsmooth_objective", "regreg/problems/separable.py: separable", "regreg/atoms/group_lasso.py", "regreg/atoms/sparse_group_lasso.py", "regreg/atoms/weighted_atoms.py", "regreg/atoms/slope.py", "regreg/atoms/mixed_lasso.py", "regreg/atoms/simplex.py"]}
{"id": "C91", "title": "Separable penalties as objects: conjugate, Moreau decomposition, reshaped groups", "statement": "A separable penalty behaves as one atom standing for the sum of its atoms on their groups: nonsmooth_objective is the sum of the documented values; conjugate is the separable penalty of the conjugate atoms and denotes the Fenchel conjugate of the sum, and conjugating twice gives the function back; proximal returns the unique minimiser and satisfies Moreau's decomposition with the conjugate, x = prox_f(L, x) + prox_f*(1/L, Lx)/L; reshaping the groups changes nothing; a quadratic of its own and smoothing work as for every atom. Violated: coordinates in no group (the conjugate should be infinite off 0 there), reshaped groups outside a problem, an own quadratic, smoothing, initial=, selectors, and the constraint form, which bounds each block instead of the sum.", "quantifier": "all atoms (both forms, any offset, linear and constant term), all lists of groups and shapes, all vectors, quadratics and step sizes", "why_tests_cant": "Tests check a few group layouts numerically; the claim is that the infinite-valued conjugate of a sum is the sum of the conjugates for every layout, which no evaluation at points can establish.", "anchors": ["regreg/problems/separable.py: separable.__init__, conjugate, proximal, nonsmooth_objective, seminorm, constraint, selectors", "regreg/problems/composite.py: smooth_conjugate, nonsmooth.solve", "regreg/atoms/__init__.py: atom.smoothed", "regreg/problems/simple.py: simple_problem.__init__"]}
{"id": "C92", "title": "Copies, conjugates and compositions of atoms behave like independent values", "statement": "A program that makes atoms, copies them, takes conjugates, composes them with affine maps, changes their parameters, offset, quadratic and weights, and solves, gets what it would get if every atom were a value of its own: a call changes the atom it names and no other, copy(atom) is the same penalty, and composing with a transform leaves the atom and the transform alone. Violated: copies of about half of the classes share the quadratic object, copies of the mixed lasso share the weights, the conjugate and the composition share arrays with the atom and the transform, block_sum and block_max cannot be copied, and some copies drop the coefficients.", "quantifier": "all programs (sequences of calls of any length over any number of atoms and transforms), all classes of atoms, all values", "why_tests_cant": "Aliasing shows only after a particular sequence of calls; tests copy one atom and compare, the claim is about every history of calls on every set of objects.", "anchors": ["regreg/atoms/seminorms.py: seminorm.__copy__", "regreg/atoms/cones.py: cone.__copy__", "regreg/atoms/weighted_atoms.py, slope.py, group_lasso.py, sparse_group_lasso.py, sparse_group_block.py, linear_constraints.py, simplex.py, svd_norms.py, mixed_lasso.py: __copy__", "regreg/atoms/group_lasso.py: set_weight", "regreg/atoms/__init__.py: _work_out_conjugate, affine_atom.__init__", "regreg/problems/composite.py: composite.__init__, set_offset", "regreg/identity_quadratic.py: __copy__"]}
{"id": "C93", "title": "The mixed lasso atom is the penalty its labels describe", "statement": "For mixed_lasso and mixed_lasso_dual objects, in terms of the labels (unpenalised, l1, positive part, nonnegative, group), weights, parameter, offset and quadratic given to the constructor: proximal returns the unique minimiser of the documented function plus the quadratic, whatever the order in which Python enumerates the set of groups; nonsmooth_objective reports the documented value; constraint decides the bound; conjugate denotes the Fenchel conjugate and conjugating twice gives the function back; smooth_conjugate and smoothed evaluate the smoothed function with its gradient and Lipschitz constant; == and copy identify equal penalties. Violated: with an offset the value is computed with the offset subtracted twice, the feasibility checks of both classes are wrong, constraint of the dual ignores some coordinates, == ignores offset and quadratic.", "quantifier": "all labellings, weights, parameters, offsets, quadratics, enumeration orders of the groups and arguments", "why_tests_cant": "The labels determine index arrays through the enumeration of a set; a test fixes one labelling and compares a few values, the claim is about the minimiser of a function over all vectors and about every labelling.", "anchors": ["regreg/atoms/mixed_lasso.py: mixed_lasso, mixed_lasso_dual", "regreg/atoms/mixed_lasso_cython.pyx", "regreg/problems/composite.py: smooth_conjugate, nonsmooth.solve", "regreg/atoms/__init__.py: atom.smoothed"]}
{"id": "C94", "title": "Cross-validation scores are held-out scores of models fitted on the training cases", "statement": "For a lasso_path built from any of the losses, any design, weights and elastic net parameters: the constructor raises exactly on a negative weight; its null solution is zero on the penalised features and minimises the unpenalised problem, grad_solution is the gradient there, and the null solution is optimal for every large enough lagrange parameter; path.subsample restricts the loss to the cases given; in cross_validate the coefficients of a fold are optimal for the elastic net problem of its training cases (loss rescaled by n/n_train) at each lagrange parameter, do not depend on the held-out responses, and the returned arrays are mean and standard deviation over the folds of the score of the held-out linear predictors. Violated: with strong_rules, the default fitter, the first coefficients of every fold are the null solution of all cases, held-out ones included; a design with an offset is used without its offset except in full_loss; huber losses lose their case weights.", "quantifier": "all losses, designs, weights, elastic net parameters, lagrange sequences, folds, score functions, initial data and exact (or accurate) solvers", "why_tests_cant": "Leakage of held-out data and optimality on the training cases are statements about all pairs of data sets and all competitors; a test sees one data set and one number per lagrange parameter.", "anchors": ["regreg/paths/lasso.py: lasso_path.__init__, subsample, solve_subproblem, factories", "regreg/paths/__init__.py: warm_start, strong_rules, group_path.linpred, full_loss", "regreg/paths/cross_validate.py: cross_validate, fit_fold"]}
{"id": "C95", "title": "The folds of a cross-validation may run in any thread schedule", "statement": "cross_validate runs one call of warm_start per fold in concurrent threads, and all calls without solve_args share one dictionary. For every interleaving of the threads: the rows a fold has computed are solver answers for its own problems, in the order of its own lagrange sequence, each started at its own previous row; no schedule blocks a fold; if the solver is accurate for inner_tol whatever the step, every row of every fold is optimal for the fold's own training problem; if the solver's answer does not depend on tolerance and step, or if the threads do not interleave within an iteration (n_jobs=1), the result is exactly that of warm_start alone; keyword arguments other than tol and start_step reach the solver unchanged. Violated: the start_step of another fold can reach a fold's solver, so results depend on the schedule; concurrent calls with different inner_tol can get each other's tolerance; a tol given in solve_args is overwritten, in the caller's dictionary.", "quantifier": "all schedules (every interleaving of the dictionary accesses of any number of concurrent calls), lagrange sequences, problems, solvers, initial steps and dictionaries", "why_tests_cant": "A data race shows in a few of exponentially many interleavings; a test runs whichever the interpreter happens to choose.", "anchors": ["regreg/paths/__init__.py: warm_start (solve_args={})", "regreg/paths/cross_validate.py: cross_validate, fit_fold"]}
{"id": "C96", "title": "FISTA stops by its tolerance within a bounded number of passes", "statement": "On a convex problem with a correct proximal map and backtracking, FISTA.fit never counts a bad step, so the warning 'prox is taking bad steps' never ends a run; a run shorter than max_its ended because the last proposal changed the objective by less than tol * max(|objective|, 1); and with monotonicity_restart, the objective rule and tol > 1e-10 (the defaults), a run makes at most 2 (E - B) / tol + 1 passes after the first min_its, where E is the objective then and B any lower bound, whatever the conditioning, the steps and max_its. In closed form from a feasible start, and for every penalised regression of C88. Violated: the rule is no certificate for any tolerance; there is one convex problem and one start for which fit with every tol > 0 and all other arguments at their defaults returns the same point, worse than the minimum by any prescribed gap.", "quantifier": "all convex problems, starts, step sizes, tolerances, min_its and max_its, all runs that return", "why_tests_cant": "A test runs a few problems for a few tolerances; the bound is over all of them, and the failure needs a start at which the momentum overshoot lands on the same objective level.", "anchors": ["regreg/algorithms.py: FISTA.fit, backtrack, update_working_coefs", "regreg/problems/simple.py: simple_problem.solve"]}
{"id": "C97", "title": "Equal penalties are the same penalty", "statement": "A penalty equals itself and its copy. == is symmetric and transitive. If A == B then A and B have the same value and the same proximal map at every argument; penalties with the same parameters written differently are equal. For quadratics: q == q is True, == is symmetric, and noneify changes no value. Violated: slope ignores its weights, sparse_group_lasso its lasso_weights, group_lasso its bound, all classes the offset and the quadratic, the seminorms the shape; == of linear constraints and of quadratics is a one-sided tolerance and not symmetric; weights of length 1 are broadcast so == of weighted norms is not transitive and may raise; mixed_lasso with default weights differs from the same weights written out; q == q raises for a quadratic without center or linear term; noneify raises for every quadratic with a center.", "quantifier": "all penalty classes of the model, all parameters, shapes, offsets and quadratics, all arguments", "why_tests_cant": "A test compares a few pairs; soundness is about all pairs of objects and all arguments of the two functions.", "anchors": ["regreg/atoms/seminorms.py: seminorm.__eq__, __copy__", "regreg/atoms/weighted_atoms.py: seminorm.__eq__", "regreg/atoms/group_lasso.py: group_lasso.__eq__", "regreg/atoms/mixed_lasso.py: mixed_lasso.__eq__", "regreg/atoms/cones.py: cone.__eq__", "regreg/atoms/simplex.py: simplex_constraint.__eq__, maximum.__eq__", "regreg/atoms/linear_constraints.py: linear_constraint.__eq__", "regreg/identity_quadratic.py: identity_quadratic.__eq__, noneify"]}
{"id": "C98", "title": "A GLM loss behaves as a value of its own", "statement": "What a glm object shows (value, gradient, Hessian, linear predictor, data) is determined by its own attributes as last assigned: assigning to one object, evaluating it, or failing to assign to it shows on no other object, and an assignment that raises changes nothing. A copy or subsample is equal to its original and from then on independent of it, of the arrays both were built from, and of everything made later. Violated: g.data = X, y keeps the old design in value and gradient; two glm objects on one saturated loss overwrite each other's response; a copy and the Hessian forget coef; a refused response has been stored when ValueError is raised; the caller's arrays are kept by reference.", "quantifier": "all programs over any number of arrays, saturated losses and glm objects of the gaussian, poisson, huber, logistic and huber_svm losses: construction, assignment to every attribute, in-place edits of any reachable array, sharing of weights and losses, copies, subsamples and evaluations in any order", "why_tests_cant": "Aliasing shows only after particular sequences of statements; a test runs a few sequences, independence is about all programs before and after the copy.", "anchors": ["regreg/smooth/glm.py: glm.__init__, smooth_objective, hessian, get_data, set_data, __copy__, subsample, linear_predictor", "regreg/smooth/glm.py: gaussian_loglike, poisson_loglike, huber_loss (set_data, __copy__)", "regreg/smooth/__init__.py: smooth_atom.scale, affine_smooth", "regreg/smooth/glm.py: glm.gaussian, glm.logistic"]}
{"id": "C99", "title": "Solutions stay what they were, and problems do not disturb each other", "statement": "The array returned by solve keeps its value, whatever is solved afterwards. solve starts at the current point of its problem, returns the last accepted point and leaves it as the point for the next solve; it changes the point of no other problem. A problem on a fresh atom starts at the atom's initial value whatever was done before. Violated where arrays are written in place: coefs[:] = v (as in nesta), a second quasi_newton.solve, admm_problem.solve, and a problem built on an atom that was used before starts elsewhere.", "quantifier": "all sessions: any number of atoms, losses, simple_problem, quasi_newton and admm_problem objects, made, solved, read and written in any order; every sequence of accepted and rejected proximal points of every solve", "why_tests_cant": "The arrays are shared between atom, loss, problem and result; whether this shows depends on the order of the statements of a session. A test runs one order.", "anchors": ["regreg/problems/simple.py: simple_problem.__init__, solve", "regreg/problems/composite.py: nonsmooth.solve, smooth.solve, composite.__init__", "regreg/algorithms.py: FISTA.fit", "regreg/problems/newton.py: quasi_newton.__init__, solve, solve_inner_loop", "regreg/problems/admm.py: admm_problem.__init__, update_loss_coefs, solve", "regreg/problems/simple.py: nesta"]}
{"id": "C100", "title": "A penalised problem with any loss and any penalty is solved", "statement": "For any loss that returns a convex function and its gradient and any nonsmooth atom that solves its proximal problem, simple_problem(loss, atom): objective is loss plus quadratic plus penalty; a point minimises it exactly when the proximal gradient step keeps it; with a Lipschitz gradient, solve returns finite coefficients and their objective, misses the minimum after k passes by at most 2||x0-u||^2/(t(k+1)^2), and keeps a start that is already optimal. The losses of the library qualify: quadratic losses, least squares, glms, Cox regression (any ties, after any calls), smoothed atoms, nonnegative sums and affine compositions of such losses. For logistic regression the certificate holds where all predictors are at most 100. Violated: sums and affine compositions drop the quadratics of their parts.", "quantifier": "every loss and atom that meet the contracts, every design, response, weight, tie pattern, offset and quadratic; every start, solver setting with backtracking, number of passes; every tree of sums and compositions", "why_tests_cant": "Every pair of a loss and a penalty is a different problem; tests solve a few of them with fixed data to a tolerance.", "anchors": ["regreg/problems/simple.py: simple_problem", "regreg/algorithms.py: FISTA.fit", "regreg/smooth/__init__.py: sum, affine_smooth, smooth_atom.affine", "regreg/smooth/quadratic.py: quadratic_loss, squared_error", "regreg/smooth/glm.py: glm, glm.cox, glm.smooth_objective", "regreg/smooth/cox.py: cox_loglike", "regreg/problems/composite.py: composite.smoothed, smooth_conjugate"]}
{"id": "C101", "title": "Cone constraints on affine images have the right feasible set, conjugate and dual", "statement": "For the orthants, the zero and the full space, and the epigraphs of the l1, l2 and sup norms with their polars: cls.affine(D, a) and cls.linear(D, offset=a) build an object that evaluates to 0 (plus the attached quadratic at D x) wherever D x + a is in the cone, and to infinity at every point that is further than 1e-5 relative from it. The class table pairs each cone with its polar; the conjugate of a cone object with offset and linear term is the Fenchel conjugate and conjugating twice gives the same function back. proximal solves the proximal problem. The pair returned by dual represents the constraint, so that minimising a strongly convex function subject to D x + a in the cone through dual_problem returns the unique constrained minimiser. Violated: the proximal map of the l2 epigraph, and operators that carry an offset of their own (dropped).", "quantifier": "every cone class, dimension, transform, offset, linear and constant term, every point; every strongly convex function with a computable conjugate and every sequence of solver evaluations that ends at a dual minimiser", "why_tests_cant": "Feasibility and duality are statements about all points of a cone and all vectors of its polar; tests compare a few solvers on random data to a tolerance.", "anchors": ["regreg/atoms/cones.py: cone, affine_cone, nonnegative, nonpositive, zero, zero_constraint, l1_epigraph, l2_epigraph, linf_epigraph, conjugate_cone_pairs", "regreg/atoms/__init__.py: affine_atom", "regreg/problems/dual_problem.py: dual_problem"]}
{"id": "C102", "title": "Solutions depend on the tuning parameter and on the data as they should", "statement": "For simple_problem(loss, atom) with any convex loss (with its quadratic) and any of the library's penalties: the zero vector is the solution exactly when minus the gradient at zero is in the ball of radius lagrange of the conjugate seminorm, which is also exactly when a proximal gradient step from zero stays there, and exactly when conjugate.seminorm(-grad, lagrange=1) <= lagrange (this number is wrong for positive_part and max_positive_part), so default_lagrange_sequence starts exactly where the solution leaves zero. Raising the multiplier never raises the penalty of the solution and never lowers its loss, and the answers of solve are ordered the same way up to their accuracy bounds. A solution in Lagrange form solves the bound form at its own penalty, and every solution of a bound form with positive bound solves the Lagrange form for some multiplier. Proximal maps are firmly nonexpansive. A quadratic with positive coefficient makes the solution unique and the coefficients returned by solve converge to it. For least squares, all solutions have the same fitted values, those returned by solve converge to them, and fitted values are nonexpansive in the response.", "quantifier": "every loss and atom meeting the contracts of C90 and C100 (all library losses and penalties shown there), every multiplier, bound, start, solver setting of C100, every design, weights and pair of responses", "why_tests_cant": "Each clause compares two optimisation problems over a continuum; a test compares two runs of a solver on one data set.", "anchors": ["regreg/problems/simple.py: simple_problem.solve", "regreg/atoms/seminorms.py: seminorm.seminorm, seminorm.get_conjugate, seminorm.proximal", "regreg/atoms/group_lasso.py: group_lasso", "regreg/smooth/glm.py: glm.gaussian", "regreg/paths/__init__.py: default_lagrange_sequence"]}
{"id": "C103", "title": "Epigraph cones of the group LASSO and of matrix norms behave as the cones they are named after", "statement": "For the four classes of group_lasso.py (epigraph of the group LASSO norm, its polar, epigraph of the dual norm, its polar), built from any labels and weights, and for the four classes of svd_norms.py (epigraphs of the nuclear and operator norms and their polars), built from any matrix shape, with any offset and any linear and constant term: members of the cone evaluate to the quadratic, what is accepted becomes a member once the bound is changed by a factor 1 + 1e-5; the conjugate is an object of the polar class with the same groups and weights or matrix shape, denotes the Fenchel conjugate, and conjugating twice gives the function back; proximal returns the unique minimiser; dual of the object and of affine_cone(object, D) represents the function; and a problem with the constraint 'D x in the cone' handed to dual_problem through that dual returns the constrained minimiser.", "quantifier": "every label vector, weight dictionary with weights at least 1e-20, tie order of the sort, matrix shape, singular value decomposition meeting numpy's contract, offset, linear and constant term, linear transform, point, quadratic, strongly convex loss and schedule of evaluations", "why_tests_cant": "The conjugate is a supremum over all points and the projections are minimisers over cones of every size and every grouping; tests evaluate a few arrays of one shape.", "anchors": ["regreg/atoms/group_lasso.py: group_lasso_cone, group_lasso_epigraph, group_lasso_epigraph_polar, group_lasso_dual_epigraph, group_lasso_dual_epigraph_polar, conjugate_cone_pairs", "regreg/atoms/svd_norms.py: svd_cone, nuclear_norm_epigraph, nuclear_norm_epigraph_polar, operator_norm_epigraph, operator_norm_epigraph_polar, conjugate_cone_pairs", "regreg/atoms/cones.py: cone.proximal, cone.nonsmooth_objective, affine_cone", "regreg/atoms/__init__.py: affine_atom"]}
{"id": "C104", "title": "Multi-response regression with a matrix penalty is solved", "statement": "A coefficient matrix fitted by solving mglm + penalty, for mglm over stacked_common_loglike.gaussian (and any stack of the library's losses) or over the multinomial log-likelihood, and for the matrix penalties l1_l1, linf_linf, l1_l2, linf_l2, sparse_group_block and its dual, nuclear_norm and operator_norm in Lagrange or bound form: the smooth value and gradient are those of the documented sum over columns for every history of calls, every returned matrix carries an optimality certificate, and the run returns within a computable number of steps of a documented rate. A zero row is an ordinary matrix and must not break the fit.", "quantifier": "every design, response matrix, number of responses, offset, case weights, multiplier or bound, singular value decomposition meeting numpy's contract, start, tolerance and history of calls", "why_tests_cant": "Multi-response fits are tested by nothing but a few shapes; the stack mutates its weight arrays during evaluation, so only a statement over all histories of calls says what a fit minimises, and the row norms divide by norms of rows that tests never make zero.", "anchors": ["regreg/smooth/mglm.py: mglm, stacked_loglike, stacked_common_loglike, multinomial_loglike", "regreg/atoms/block_norms.py: l1_l1, linf_linf, l1_l2, linf_l2, sparse_group_block, sparse_group_block_dual", "regreg/atoms/svd_norms.py: nuclear_norm, operator_norm", "regreg/problems/simple.py: simple_problem.solve", "regreg/algorithms.py: FISTA"]}
{"id": "C105", "title": "Every class method that builds a multi-response loss builds the documented one", "statement": "mglm.stacked and stacked_common_loglike.gaussian, logistic, poisson, huber, huber_svm and cox return an object whose value and gradient are coef times the sum over the responses of the documented loss of that response, for every history of evaluations; for Cox models with several event times per case this sum of partial likelihoods, with a matrix penalty, is minimised by solve with the certificate and rate of every other loss.", "quantifier": "every design, response matrix, censoring, tie pattern, sorting of tied times, coef, offsets, nonnegative case weights with positive risk sets, history of evaluations, penalty standing for a convex function, start and step settings", "why_tests_cant": "The class methods are not called by any test; a column loss writes its buffers and multiplies the weight array it is handed at every call, so what a fit minimises depends on the history; and whether a class method works at all for some input can only be said for all inputs.", "anchors": ["regreg/smooth/mglm.py: mglm.stacked, stacked_common_loglike.logistic, poisson, huber, huber_svm, cox", "regreg/smooth/cox.py: cox_loglike.smooth_objective", "regreg/smooth/glm.py: glm.smooth_objective"]}
{"id": "C106", "title": "The dual classes of the structured penalties are the documented penalties, and terms are the parts of the seminorm", "statement": "group_lasso_dual, sparse_group_lasso_dual, the weighted supnorm and slope_conjugate, with any offset and quadratic, stand for the documented dual norm (Lagrange form) or for the constraint that it is at most bound (bound form): proximal returns the minimiser and nonsmooth_objective the value; terms(x) are the numbers whose sum (primal classes) or maximum (dual classes) is seminorm(x, lagrange=1).", "quantifier": "every assignment of groups, nonnegative weights, multiplier or bound, offset, own quadratic, quadratic passed to proximal, order of ties and point", "why_tests_cant": "The dual classes come into play through conjugates, never in a fit of the test suite; ties, zero and infinite weights and the truth of a membership test at every point cannot be sampled.", "anchors": ["regreg/atoms/group_lasso.py: group_lasso.terms, group_lasso_dual", "regreg/atoms/sparse_group_lasso.py: sparse_group_lasso.terms, sparse_group_lasso_dual", "regreg/atoms/weighted_atoms.py: l1norm.terms, supnorm", "regreg/atoms/slope.py: slope_conjugate"]}
{"id": "C107", "title": "Problems made by the convenience constructors are the problems they name, and solve(quadratic=q) solves the sum", "statement": "simple_problem.nonsmooth(atom) minimises the atom alone, simple_problem.smooth(loss) the loss alone, separable_problem (with singleton, fromatom) loss plus the atoms over their groups, simple_problem(signal_approximator(Y, c), atom) denoises: its solution is atom.proximal(sq(c, Y, 0, 0)). solve(quadratic=q) on any problem is the run on the problem whose loss has q added. In every case solve returns, with a bound on the distance to the solution in terms of the length of the history.", "quantifier": "every loss with Lipschitz gradient, atom, quadratic, start, group structure, and solver setting with backtracking", "why_tests_cant": "The identities are between complete runs of the solver (history, coefficients and value) and between a solver and a proximal map; tests compare a few runs up to a tolerance.", "anchors": ["regreg/problems/simple.py: simple_problem.smooth, nonsmooth, solve", "regreg/problems/separable.py: separable_problem, separable_problem.singleton, separable_problem.fromatom", "regreg/smooth/quadratic.py: signal_approximator", "regreg/problems/composite.py: composite.proximal_optimum, smooth.solve"]}
{"id": "C108", "title": "Probit, complementary log-log, logistic and Poisson regressions are solved correctly whenever the penalty bounds the linear predictors", "statement": "glm.probit and glm.cloglog accept exactly the documented data and return the weighted binomial negative log-likelihood at X(beta - offset) and its gradient wherever the linear predictors are at most 20 (probit) or 5 (cloglog); the same holds for logistic regression up to 100 and for Poisson regression without a bound. At such coefficients a proximal gradient step that does not move certifies a global minimum of the textbook objective. If every coefficient vector the atom allows has linear predictors within a third of the bound, simple_problem(glm, atom).solve() returns from every allowed start, with the textbook objective of what it returns and the accelerated rate, although the loss itself is neither convex nor globally smooth.", "quantifier": "every design, successes, trials, counts, coefficient, offsets, case weights, quadratic, atom with bounded domain, start and solver setting with backtracking", "why_tests_cant": "The claim is that no run, of any length, leaves the region where the loss is right, and that its rate is that of the textbook loss; tests see a few runs and cannot tell clipped from unclipped gradients.", "anchors": ["regreg/smooth/glm.py: glm.probit, glm.cloglog, glm.smooth_objective, glm.linear_predictor, glm.logistic, glm.poisson", "regreg/smooth/binary.py: probit_loglike, cloglog_loglike, logistic_loglike", "regreg/problems/simple.py: simple_problem.solve", "regreg/algorithms.py: FISTA.fit"]}
{"id": "C109", "title": "Penalised multinomial regression is solved, and its two parametrisations and logistic regression are one model", "statement": "The multinomial negative log-likelihood of mglm.multinomial, with and without baseline category, is convex in the coefficient matrix, and its gradient is Lipschitz with constant coef * sum_i w_i N_i |x_i|^2 (N_i trials of case i). If every coefficient matrix the atom allows keeps the linear predictors within 50/3, simple_problem(loss, atom).solve() returns from every allowed start, with the exact objective of what it returns and the accelerated rate. mglm.multinomial(baseline=True) at B has the value, and the first columns of the gradient, of mglm.multinomial(baseline=False) at B with a column of zeros added. Without a baseline, adding one vector to all columns does not change the loss. With two categories and a baseline the loss is that of glm.logistic.", "quantifier": "every design, counts, coefficient, offsets, case weights, quadratic, coefficient matrix, matrix atom with bounded domain, start and solver setting with backtracking", "why_tests_cant": "The Lipschitz constant and the rate bound all matrices and all runs; the clip at 50 is not reached by test data, and equality of parametrisations is a statement about every matrix.", "anchors": ["regreg/smooth/mglm.py: mglm.multinomial, multinomial_loglike.smooth_objective, multinomial_baseline_loglike.smooth_objective", "regreg/smooth/glm.py: glm.smooth_objective, glm.logistic", "regreg/problems/simple.py: simple_problem.solve", "regreg/algorithms.py: FISTA.fit"]}
{"id": "C110", "title": "partial_svd returns orthonormal vectors, never overstates a singular value, and gains with every pass", "statement": "For every matrix, rank, padding, start, tolerance, pass limit and stopping rule with which partial_svd answers: the left vectors it returns are orthonormal, so are the right vectors, each value is positive and equals u'Xv, none exceeds the operator norm of X and their sum does not exceed its nuclear norm. Allowing more passes never reduces what the leading m right vectors capture, for any m. If one more pass would leave the right vectors unchanged up to signs, the triplets are exact singular triplets. With sigma the largest singular value, z its left vector and u the first column of the start, the first value d after K passes satisfies d <= sigma and |<z,u>| sigma^(2K-1) <= |u| d^(2K-1), so it tends to sigma with K if <z,u> is not zero. (A start orthogonal to z never finds sigma, and asking for more values than X has rows raises IndexError.)", "quantifier": "every matrix, rank, padding, warm start and random numbers, tolerance, pass limit, stopping rule, and every QR routine meeting its contract", "why_tests_cant": "The iteration is started at random and stopped by a tolerance on its own values; a test sees a few matrices with a few seeds, the bounds and the rate must hold for all of them.", "anchors": ["regreg/affine/factored_matrix.py: partial_svd"]}
{"id": "C111", "title": "Solving again with min_its=1 certifies an answer, and repeating it always ends", "statement": "For every convex loss with an M-Lipschitz gradient and every atom, let solve(min_its=1) be called with backtracking and the objective stopping rule. If the call records one objective value, the objective vc of its answer c exceeds that of every u by at most gap + sqrt(2 gap / t |c-u|^2), with gap = tol max(|vc|,1) and t = min(start_step, 1/(2 M alpha)). If the objective of the start exceeds that of no other coefficients by tol, the call records one value. With the default restarts and tol > 1e-10, a call that records more values lowers the objective by at least tol; so if the objective is v0 at the start and never below B, among more than (v0-B)/tol calls in a row on the same object one records a single value and is certified. If the quadratic of the loss has coefficient q > 0 (a ridge term, an elastic net), a certified c with r = gap (1 + 2/(t q)) has objective within 2 r of the minimum and q/4 |c - solution|^2 <= r.", "quantifier": "every loss and atom meeting their contracts, start, tolerance, step size, alpha >= 1, restart rule, number of calls", "why_tests_cant": "One call can stop arbitrarily far from the minimum while every value it shows looks converged; whether a second call catches that must hold for all problems.", "anchors": ["regreg/problems/simple.py: simple_problem.solve", "regreg/algorithms.py: FISTA.fit, FISTA.backtrack"]}
{"id": "C112", "title": "The trend filter penalises exactly the departures from polynomials, and the fused lasso is a lasso in its jumps", "statement": "For distinct knots in any order, entry i of trend_filter(knots, order=k) applied to x is zero exactly when the k+1 values at positions i..i+k lie on one polynomial of degree below k in the knots; a run of zero entries p..q means exactly that the values at p..q+k lie on one polynomial, and the whole output is zero exactly when all values do. For strictly increasing knots trend_filter_inverse(knots) applied to the first order trend filter of x is x minus its mean, and for every loss and every lam, a constant c and jumps theta minimise loss(c + inverse(theta)) + lam |theta|_1 exactly when beta = c + inverse(theta) minimises loss(beta) + lam |trend_filter(beta)|_1. (Strictness is needed: with repeated knots the inverse cannot produce the jump between them.)", "quantifier": "every number of knots, order, distinct (for the inverse: strictly increasing) knots, values, loss and lam", "why_tests_cant": "The order and the number of knots are unbounded and the claim is an equivalence: a test can only try some polynomials and some knots.", "anchors": ["regreg/affine/fused_lasso.py: difference_transform, trend_filter, trend_filter_inverse"]}
{"id": "C113", "title": "A smoothed penalty is its Moreau envelope, and solving the smoothed problem solves the exact one up to a known gap", "statement": "For each of the seven seminorms in Lagrange or bound form (array offset, no quadratic coefficient) and eps > 0, atom.smoothed(identity_quadratic(eps,0,0,0)) evaluates V(x) = min_z pen(z) + |x-z|^2/(2 eps); the minimum is at the point z returned by atom.proximal(identity_quadratic(1/eps, x, 0, 0)) and the gradient is (x-z)/eps. In bound form V is the squared distance to the constraint set over 2 eps and vanishes exactly on it. For the five seminorms that are finite everywhere with multiplier r, pen - gap <= V <= pen with gap = eps r^2 K/2, K the number of coefficients for the l1 norm and positive part and 1 otherwise; the same holds for penalties of D x + alpha such as the fused LASSO term. Gaps add up in smooth_sum; a solution of the smoothed problem (with any further atom) is within the sum of the gaps of the smallest exact objective, and the coefficients solve returns after k recorded values are within gap + 2 |x0-u|^2/(t (k+1)^2), with u any solution of the smoothed problem, t = min(start_step, 1/(2 L alpha)) and L the sum of the Lipschitz constants.", "quantifier": "every seminorm atom, form, offset, eps > 0, operator D, number of smoothed terms, loss, further atom, start and settings without restarts", "why_tests_cant": "The gap is a supremum over all coefficients and must hold for every eps and dimension; a test sees single points and cannot separate smoothing error from solver error.", "anchors": ["regreg/atoms/__init__.py: atom.smoothed, affine_atom.smoothed", "regreg/problems/composite.py: smooth_conjugate", "regreg/smooth/__init__.py: sum", "doc/source/examples/Atoms.rst"]}
{"id": "C114", "title": "Nearly isotonic regression: solutions are recognised by partial sums of residuals, and a large multiplier gives isotonic regression exactly", "statement": "container(signal_approximator(Y, c), positive_part.linear(-D, lagrange=lam)) with D the first differences has objective c/2 |x-Y|^2 + lam sum_i max(x_i - x_{i+1}, 0). For c > 0, lam >= 0 it has exactly one minimiser, and x is it exactly when the residuals Y - x add up to zero and c times each of their partial sums lies in [0, lam], equals lam where x drops and 0 where x rises. The minimiser has the mean of Y, lies in the range of Y, and is Y if Y is nondecreasing or lam = 0. If lam > c sqrt(n) |Y-u| for some nondecreasing u, the minimiser is nondecreasing and is the isotonic regression of Y; the isotonic regression is the minimiser exactly when lam is at least c times each partial sum of its residuals. proximal(identity_quadratic(c, Y, 0, 0)) of the container returns a point within squared distance 2 delta / c of the minimiser if its inner solver reaches the dual optimum up to delta.", "quantifier": "every signal of length at least two, c > 0 and lam >= 0", "why_tests_cant": "The equivalences range over all signals and multipliers; a test with one large multiplier cannot tell an exact isotonic fit from a nearly monotone one nor find the threshold.", "anchors": ["regreg/problems/container.py: container", "regreg/atoms/seminorms.py: positive_part, seminorm.linear", "regreg/smooth/quadratic.py: signal_approximator", "doc/examples/nearlyisotonic.py"]}
{"id": "C115", "title": "A transform applied to a matrix acts on its columns; todense gives its matrix", "statement": "The docstrings of linear_map, affine_map and adjoint_map allow a two-dimensional argument. Column c of the result is the method applied to column c of the argument, for every transform built from dense, sparse or diagonal operators, selectors, intercepts, centering, identities and their sums, multiples, residuals, adjoints and compositions (designs of normalize included); adjoint_map of selectors and intercepts, and stacks, products and reshapes, raise instead. todense(T) is then a matrix M with T.linear_map(x) = M x and T.adjoint_map(u) = M' u. tensorize(T, q) acts on the columns and adds T.affine_offset to each.", "quantifier": "every transform expression, every number of columns and every matrix", "why_tests_cant": "The claim is over all expression trees; scaler passes any test with a single scaler or a vector argument, and silently scales the wrong axis when composed and applied to a square matrix.", "anchors": ["regreg/affine/__init__.py: affine_transform.linear_map, affine_map, adjoint_map, broadcast_first, todense, tensorize, scaler, selector, add_intercept, centering, vstack, hstack, product, composition, affine_sum, residual, adjoint, aslinear"]}
{"id": "C116", "title": "A constraint beside a penalty in a container; isotonic regression as a program agrees with pool adjacent violators", "statement": "cls.affine(D, alpha), cls.linear(D) and plain objects of the cone classes can be members of a container next to a seminorm penalty: container(loss, penalty, constraint).proximal(q) returns a point within squared distance 2 delta / coef of the one minimiser of q plus the penalty over the feasible set, if its inner solver reaches the dual optimum up to delta, and that minimiser if the inner solver is exact. For container(signal_approximator(Y, c), nonnegative.linear(D)) with D the first differences, the minimiser is the fit of the isotonic regression routine used by slope, the unchecked objective is c/2 |x-Y|^2, and a finite checked objective is that value at a point that is nondecreasing up to the tolerance.", "quantifier": "every seminorm class and mode, every cone class but the l2 epigraph and its polar, all linear maps, offsets and signals", "why_tests_cant": "Agreement of two unrelated algorithms (a dual first-order method and pool adjacent violators) has to hold for every signal; the tolerance of the feasibility check hides violations in tests.", "anchors": ["regreg/problems/container.py: container", "regreg/atoms/cones.py: cone.affine, cone.linear, affine_cone, nonnegative", "regreg/atoms/_isotonic_py.py", "doc/examples/isotonic.py"]}
{"id": "C117", "title": "The proximal map of a container converges to the exact one at a rate given by the length of the reported history", "statement": "container.proximal(q, prox_control, return_objective_hist=True) runs the solver of the library on a dual problem at a fixed step. If the monotonicity restarts are off and dual_reference_lipschitz bounds the squared norm of the stacked transform D, the call returns a vector p and a history with m entries, 1 <= m <= max_its, and coef (m+1) |p - p*| <= 2 sqrt(dual_reference_lipschitz) |u0 - u*|, p* the exact proximal point, u0 the starting point (zero) and u* any solution of the dual problem. This needs no hypothesis about the solver for a loss with one penalty cls.affine(D, alpha). For the generalised lasso, container(loss, l1norm.linear(D, lagrange=lam)), the right-hand side is 2 lam sqrt(dual_reference_lipschitz K), K the number of rows of D; for l2norm.linear and supnorm.linear it is 2 lam sqrt(dual_reference_lipschitz). With several norm penalties the squares of these bounds add up: for container(loss, l1norm.linear(D1, lagrange=lam1), l1norm.linear(D2, lagrange=lam2)) the right-hand side is 2 sqrt(dual_reference_lipschitz (K1 lam1^2 + K2 lam2^2)). For isotonic regression, container(signal_approximator(Y, c), nonnegative.linear(D)) with D the first differences, (m+1)^2 |p - s|^2 is at most 4 dual_reference_lipschitz times the sum of the squared partial sums of Y - s, s the fit of the pool adjacent violators routine.", "quantifier": "every container without quadratic terms, every seminorm class in penalty or bound form, all transforms, offsets, quadratics with positive coefficient, starting points and solver settings", "why_tests_cant": "A rate is a statement about all numbers of iterations and all problems; a test observes one error on one problem and usually has no exact proximal point to compare with.", "anchors": ["regreg/problems/container.py: container.proximal, container.dual_reference_lipschitz", "regreg/problems/dual_problem.py: dual_problem", "regreg/algorithms.py: FISTA.fit"]}
