{
 "claims": [
  {
   "property": "C01",
   "status": "partial",
   "theorems": [
    "Verif.Props.C01_findC_small",
    "Verif.Props.C01_findC_exists",
    "Verif.Props.C01_findC_root",
    "Verif.Props.C01_findC_docstring_fails",
    "Verif.Props.C01_findUncon",
    "Verif.Props.C01_empty",
    "Verif.Props.C01_findW"
   ],
   "note": "The property is false of the code as stated in these cases, proved with witnesses: [C01_findC_docstring_fails] C01 (d): the docstring promise \"return the t>=0 such that f(t)=slope*t+b, if one exists\" fails beyond the largest knot: for `norms = [1]`, `slope = 1`, `b = -3` the root is 3 but the code returns 2."
  },
  {
   "property": "C02",
   "status": "proved",
   "theorems": [
    "Verif.Props.C02_projl1",
    "Verif.Props.C02_projl1_fixed",
    "Verif.Props.C02_l1norm_bound_prox"
   ],
   "note": ""
  },
  {
   "property": "C03",
   "status": "proved",
   "theorems": [
    "Verif.Props.C03_l1norm_lagrange_prox"
   ],
   "note": ""
  },
  {
   "property": "C04",
   "status": "proved",
   "theorems": [
    "Verif.Props.C04_projl1_epigraph",
    "Verif.Props.C04_empty"
   ],
   "note": ""
  },
  {
   "property": "C05",
   "status": "proved",
   "theorems": [
    "Verif.Props.C05_supnorm_bound_prox",
    "Verif.Props.C05_supnorm_lagrange_prox"
   ],
   "note": ""
  },
  {
   "property": "C06",
   "status": "proved",
   "theorems": [
    "Verif.Props.C06_l2norm_lagrange_prox",
    "Verif.Props.C06_l2norm_bound_prox",
    "Verif.Props.C06_no_zero_division"
   ],
   "note": ""
  },
  {
   "property": "C07",
   "status": "proved",
   "theorems": [
    "Verif.Props.C07_positive_part_lagrange_prox",
    "Verif.Props.C07_positive_part_bound_prox",
    "Verif.Props.C07_constrained_max_bound_prox",
    "Verif.Props.C07_constrained_max_lagrange_prox",
    "Verif.Props.C07_constrained_positive_part_lagrange_prox",
    "Verif.Props.C07_constrained_positive_part_bound_prox",
    "Verif.Props.C07_max_positive_part_bound_prox",
    "Verif.Props.C07_max_positive_part_lagrange_prox"
   ],
   "note": ""
  },
  {
   "property": "C08",
   "status": "partial",
   "theorems": [
    "Verif.Props.C08_l1_sup",
    "Verif.Props.C08_sup_l1",
    "Verif.Props.C08_l2_l2",
    "Verif.Props.C08_positive_part",
    "Verif.Props.C08_max_positive_part",
    "Verif.Props.C08_constrained_max_partial",
    "Verif.Props.C08_constrained_positive_part_partial",
    "Verif.Props.C08_constrained_max_fails",
    "Verif.Props.C08_constrained_positive_part_fails"
   ],
   "note": "The property is false of the code as stated in these cases, proved with witnesses: [C08_constrained_max_fails] The value with feasibility checking is not the support function: at (0,1) it is `inf`, although the inner products are bounded by 1. [C08_constrained_positive_part_fails] **C08** fails for `constrained_positive_part`: its penalty is not the support function of the ball of the class listed as its dual. Proved in part: [C08_constrained_max_partial] The true support function of `{y : Σ max(y,0) ≤ r}` is `r * max(x)` on `x ≥ 0` and `+∞` elsewhere. On `x ≥ 0` this is the value `constrained_max.seminorm` returns with `check_feasibility=False`. Partial: with `check_feasibility=True` the atom reports `inf` also on feasible points that have a coordinate below the tolerance, see `C08_constrained_max_fails`. [C08_constrained_positive_part_partial] Same for `constrained_positive_part`, partner of `max_positive_part`. Partial for the same reason, see `C08_constrained_positive_part_fails`."
  },
  {
   "property": "C09",
   "status": "proved",
   "theorems": [
    "Verif.Props.C09_l1_sup",
    "Verif.Props.C09_sup_l1",
    "Verif.Props.C09_l2",
    "Verif.Props.C09_positive_part",
    "Verif.Props.C09_constrained_max",
    "Verif.Props.C09_constrained_positive_part",
    "Verif.Props.C09_max_positive_part"
   ],
   "note": ""
  },
  {
   "property": "C10",
   "status": "proved",
   "theorems": [
    "Verif.Props.C10_proximal_lagrange",
    "Verif.Props.C10_proximal_bound",
    "Verif.Props.C10_proximal_total",
    "Verif.Props.C10_l1norm",
    "Verif.Props.C10_l1norm_bound",
    "Verif.Props.C10_supnorm",
    "Verif.Props.C10_l2norm",
    "Verif.Props.C10_cone_proximal"
   ],
   "note": ""
  },
  {
   "property": "C11",
   "status": "partial",
   "theorems": [
    "Verif.Props.C11_l1norm",
    "Verif.Props.C11_l1norm_projected",
    "Verif.Props.C11_supnorm",
    "Verif.Props.C11_l2norm",
    "Verif.Props.C11_positive_part",
    "Verif.Props.C11_constrained_max_partial",
    "Verif.Props.C11_constrained_max_fails",
    "Verif.Props.C11_constrained_positive_part_partial",
    "Verif.Props.C11_constrained_positive_part_fails",
    "Verif.Props.C11_max_positive_part_partial",
    "Verif.Props.C11_max_positive_part_fails",
    "Verif.Props.C11_constrained_max_lagrange_fails"
   ],
   "note": "The property is false of the code as stated in these cases, proved with witnesses: [C11_constrained_max_fails] The projection computed by `constrained_max.bound_prox` is reported infeasible by the same atom. [C11_constrained_positive_part_fails] Every projection computed by `constrained_positive_part.bound_prox` of a point with a nonpositive coordinate is reported infeasible by the same atom. [C11_max_positive_part_fails] With `bound = 0` no point at all is feasible for max_positive_part, although 0 is in the set. [C11_constrained_max_lagrange_fails] The lagrange-mode analogue: the output of `constrained_max.lagrange_prox` gets value `inf`. Proved in part: [C11_constrained_max_partial] constrained_max. Partial: the full claim \"every point of {0 ≤ x ≤ bound} is accepted\" is false (`C11_constrained_max_fails`); proved for points whose coordinates are all at least the tolerance, and soundness (accepted points are within tolerance of the set) holds for all. [C11_constrained_positive_part_partial] constrained_positive_part. Partial: false at points with a coordinate below the tolerance and when `bound = 0`. [C11_max_positive_part_partial] max_positive_part. Partial: needs `bound > 0`; at `bound = 0` see `C11_max_positive_part_fails`."
  },
  {
   "property": "C12",
   "status": "partial",
   "theorems": [
    "Verif.Props.C12_init",
    "Verif.Props.C12_run_partial",
    "Verif.Props.C12_mode_constant_partial",
    "Verif.Props.C12_none_fails",
    "Verif.Props.C12_negative_fails",
    "Verif.Props.C12_resolve",
    "Verif.Props.C12_copy"
   ],
   "note": "The property is false of the code as stated in these cases, proved with witnesses: [C12_none_fails] C12 is false for assignments of `None`: `atom.lagrange = None; atom.bound = 3` switches an atom from lagrange to bound mode without an exception, through a state that is in neither mode. [C12_negative_fails] C12: negative values rejected by the constructor are accepted by the setters, and such an atom can no longer be copied. Proved in part: [C12_run_partial] C12 (partial): through any sequence of assignments of numbers the object refines the specification: the mode never changes, wrong-mode assignments raise AttributeError and change nothing, and the parameter is the last one successfully assigned. Missing: assignments of `None`, for which the claim is false (`C12_none_fails`), and the nonnegativity of assigned values, which is not checked (`C12_negative_fails`). [C12_mode_constant_partial] specification consequence: the mode is never changed"
  },
  {
   "property": "C13",
   "status": "partial",
   "theorems": [
    "Verif.Props.C13_atomFn_conjugate",
    "Verif.Props.C13_conjugate",
    "Verif.Props.C13_involution",
    "Verif.Props.C13_scalar_offset_fails",
    "Verif.Props.C13_value_lagrange",
    "Verif.Props.C13_value_bound"
   ],
   "note": "The property is false of the code as stated in these cases, proved with witnesses: [C13_scalar_offset_fails] C13 needs array offsets: with a float offset 1 and a float linear term 1 in dimension 2 the constant of the conjugate is -1 instead of -2."
  },
  {
   "property": "C14",
   "status": "partial",
   "theorems": [
    "Verif.Props.C14_objective_func",
    "Verif.Props.C14_objective_modes",
    "Verif.Props.C14_objective_grad",
    "Verif.Props.C14_add_none",
    "Verif.Props.C14_collapsed_partial",
    "Verif.Props.C14_add_partial",
    "Verif.Props.C14_add_up_to_const",
    "Verif.Props.C14_collapsed_fails",
    "Verif.Props.C14_iszero"
   ],
   "note": "The property is false of the code as stated in these cases, proved with witnesses: [C14_collapsed_fails] C14 is false for float centers: `q = identity_quadratic(1, 1., None, 0)` at `x = (0,0)` is 1 but `q.collapsed()` is 1/2. Proved in part: [C14_collapsed_partial] C14 (partial): `collapsed()` evaluates to `q(x)` when the center is `None`, an array, the float 0, or the problem is one-dimensional. Missing: a nonzero float center in dimension ≥ 2, where the claim is false (`C14_collapsed_fails`). [C14_add_partial] C14 (partial): `q1 + q2` evaluates to `q1(x) + q2(x)`, same restriction on float centers."
  },
  {
   "property": "C15",
   "status": "proved",
   "theorems": [
    "Verif.Props.C15_recenter",
    "Verif.Props.C15_recenter_minimisers",
    "Verif.Props.C15_recenter_raises",
    "Verif.Props.C15_true_center",
    "Verif.Props.C15_conjugate",
    "Verif.Props.C15_conjugate_zero"
   ],
   "note": ""
  },
  {
   "property": "C16",
   "status": "proved",
   "theorems": [
    "Verif.Props.C16_nonnegative",
    "Verif.Props.C16_nonpositive",
    "Verif.Props.C16_zero",
    "Verif.Props.C16_zero_constraint",
    "Verif.Props.C16_moreau",
    "Verif.Props.C16_feasible",
    "Verif.Props.C16_reject"
   ],
   "note": ""
  },
  {
   "property": "C17",
   "status": "partial",
   "theorems": [
    "Verif.Props.C17_l1_epigraph",
    "Verif.Props.C17_l1_epigraph_polar",
    "Verif.Props.C17_linf_epigraph_polar",
    "Verif.Props.C17_linf_epigraph",
    "Verif.Props.C17_l2_epigraph_partial",
    "Verif.Props.C17_l2_epigraph_polar_partial",
    "Verif.Props.C17_l2_epigraph_fails",
    "Verif.Props.C17_l2_epigraph_nan",
    "Verif.Props.C17_feasible"
   ],
   "note": "The property is false of the code as stated in these cases, proved with witnesses: [C17_l2_epigraph_fails] C17 is false for l2_epigraph: the point (1; 3) is inside the epigraph but is mapped to (2; 2). Proved in part: [C17_l2_epigraph_partial] l2 epigraph (partial): correct for every point with nonzero vector part that is not strictly inside the cone. Missing: points strictly inside are moved (`C17_l2_epigraph_fails`), and for a zero vector part the code divides by zero (`C17_l2_epigraph_nan`). [C17_l2_epigraph_polar_partial] l2 epigraph polar (partial, same exclusions mirrored)."
  },
  {
   "property": "C18",
   "status": "proved",
   "theorems": [
    "Verif.Props.C18_simplex",
    "Verif.Props.C18_maximum",
    "Verif.Props.C18_empty",
    "Verif.Props.C18_simplex_proximal",
    "Verif.Props.C18_dual",
    "Verif.Props.C18_constraint"
   ],
   "note": ""
  },
  {
   "property": "C19",
   "status": "proved",
   "theorems": [
    "Verif.Props.C19_isotonic_regression",
    "Verif.Props.C19_pav",
    "Verif.Props.C19_versions_agree"
   ],
   "note": ""
  },
  {
   "property": "C20",
   "status": "proved",
   "theorems": [
    "Verif.Props.C20_isoPy",
    "Verif.Props.C20_seminorm_spec",
    "Verif.Props.C20_lagrange_prox",
    "Verif.Props.C20_conjugate_bound_prox",
    "Verif.Props.C20_support_function",
    "Verif.Props.C20_conjugate_support_function"
   ],
   "note": ""
  },
  {
   "property": "C21",
   "status": "partial",
   "theorems": [
    "Verif.Props.C21_seminorm",
    "Verif.Props.C21_lagrange_prox",
    "Verif.Props.C21_dual_bound_prox",
    "Verif.Props.C21_bound_prox",
    "Verif.Props.C21_dual_lagrange_prox",
    "Verif.Props.C21_duality",
    "Verif.Props.C21_dual_constraint_partial",
    "Verif.Props.C21_dual_constraint_fails",
    "Verif.Props.C21_bound_prox_zero_weights_fails",
    "Verif.Props.C21_constructor"
   ],
   "note": "The property is false of the code as stated in these cases, proved with witnesses: [C21_dual_constraint_fails] C21: with a zero weight the dual feasibility test is wrong: groups `{0}`, `{1}`, weights `(0, 1)`, point `(5, 0)`, bound 1 is accepted although the first block must vanish; the positional `False` that was meant for `check_feasibility` is bound to `nntol`. [C21_bound_prox_zero_weights_fails] C21: if every weight is zero, `group_lasso.bound_prox(x, bound=0)` raises (division by zero in the root finder) although the constraint holds everywhere. Proved in part: [C21_dual_constraint_partial] C21: with positive weights, `group_lasso_dual.constraint` reports 0 exactly on the ball on which `bound_prox` projects; the projected point is therefore reported feasible."
  },
  {
   "property": "C22",
   "status": "proved",
   "theorems": [
    "Verif.Props.C22_constructor",
    "Verif.Props.C22_seminorm",
    "Verif.Props.C22_lagrange_prox",
    "Verif.Props.C22_dual_bound_prox"
   ],
   "note": ""
  },
  {
   "property": "C23",
   "status": "partial",
   "theorems": [
    "Verif.Props.C23_l1_seminorm",
    "Verif.Props.C23_l1_lagrange_prox_partial",
    "Verif.Props.C23_l1_lagrange_zero_fails",
    "Verif.Props.C23_l1_bound_prox",
    "Verif.Props.C23_sup_bound_prox_partial",
    "Verif.Props.C23_sup_bound_zero_fails",
    "Verif.Props.C23_sup_lagrange_prox_partial",
    "Verif.Props.C23_sup_lagrange_prox_fails",
    "Verif.Props.C23_conjugate_involution"
   ],
   "note": "The property is false of the code as stated in these cases, proved with witnesses: [C23_l1_lagrange_zero_fails] C23: `lagrange = 0` with an infinite weight gives nan. [C23_sup_bound_zero_fails] C23: `bound = 0` with a zero weight gives nan although the coordinate is unconstrained. [C23_sup_lagrange_prox_fails] C23: the claim fails for a zero weight and a large `lagrange`: weights `(0, 1)`, argument `(5, 1/10)`, `lagrange = 1`. The root finder returns 0 and the code evaluates `0 * inf`: the first entry is nan, although the proximal point is `(5, 0)`. Proved in part: [C23_l1_lagrange_prox_partial] C23: `l1norm.lagrange_prox` is the proximal map of the weighted l1 norm; zero and infinite weights are allowed (for an infinite weight `lagrange` must be positive). [C23_sup_bound_prox_partial] C23: `supnorm.bound_prox` is the projection on `{w_i|z_i| ≤ bound}` (infinite weight: `z_i = 0`); with a zero weight `bound` must be positive. [C23_sup_lagrange_prox_partial] C23: `supnorm.lagrange_prox` is the proximal map of `lam * max_i w_i|z_i|` (infinite weight: `z_i = 0`). If a weight is zero, `lagrange` must be smaller than `L Σ |x_i|/w_i` over the positive finite weights, see the counterexample below."
  },
  {
   "property": "C24",
   "status": "partial",
   "theorems": [
    "Verif.Props.C24_adjoint_partial",
    "Verif.Props.C24_repeated_selector_fails",
    "Verif.Props.C24_linear",
    "Verif.Props.C24_matrix",
    "Verif.Props.C24_matrix_of_combinators",
    "Verif.Props.C24_shapes_partial",
    "Verif.Props.C24_aslinear_shapes_fails"
   ],
   "note": "The property is false of the code as stated in these cases, proved with witnesses: [C24_repeated_selector_fails] C24: a selector with a repeated position has the wrong adjoint. [C24_aslinear_shapes_fails] C24: `aslinear` of a non-square transform reports swapped shapes. Proved in part: [C24_adjoint_partial] C24: for every transform built from the combinators, `adjoint_map` is the adjoint of `linear_map`. [C24_shapes_partial] C24: `input_shape` and `output_shape` are the sizes accepted by `linear_map` and `adjoint_map`, unless an `aslinear` object occurs."
  },
  {
   "property": "C25",
   "status": "partial",
   "theorems": [
    "Verif.Props.C25_affine",
    "Verif.Props.C25_constant_of_combinators",
    "Verif.Props.C25_offset_attribute_partial",
    "Verif.Props.C25_offset_attribute_fails"
   ],
   "note": "The property is false of the code as stated in these cases, proved with witnesses: [C25_offset_attribute_fails] C25: the attribute is wrong for `composition` (the test on line 853 is inverted), `residual`, `scalar_multiply` and a transform wrapped by `affine_transform(T, None)`: it is `None` although `affine_map(0)` is not zero. Proved in part: [C25_offset_attribute_partial] C25: the attribute `affine_offset` of the stacking classes is `affine_map(0)`, `None` if that is zero."
  },
  {
   "property": "C26",
   "status": "partial",
   "theorems": [
    "Verif.Props.C26_value",
    "Verif.Props.C26_chain_rule_partial",
    "Verif.Props.C26_coef",
    "Verif.Props.C26_squared_error",
    "Verif.Props.C26_signal_approximator",
    "Verif.Props.C26_repeated_selector_fails",
    "Verif.Props.C26_bad_mode"
   ],
   "note": "The property is false of the code as stated in these cases, proved with witnesses: [C26_repeated_selector_fails] **C26** fails for a selector with a repeated position: the composed gradient is not the gradient of the composed value. Proved in part: [C26_chain_rule_partial] **C26** chain rule. If the atom's gradient is the gradient of its value at `Tx`, then the vector `affine_smooth` returns is the gradient of the composed value at `x`. Missing: transforms containing a `selector` with repeated positions, for which it is false (`C26_repeated_selector_fails`)."
  },
  {
   "property": "C27",
   "status": "proved",
   "theorems": [
    "Verif.Props.C27_init",
    "Verif.Props.C27_weights",
    "Verif.Props.C27_sum",
    "Verif.Props.C27_gradient",
    "Verif.Props.C27_bad_mode"
   ],
   "note": ""
  },
  {
   "property": "C28",
   "status": "partial",
   "theorems": [
    "Verif.Props.C28_gaussian",
    "Verif.Props.C28_poisson",
    "Verif.Props.C28_huber",
    "Verif.Props.C28_huber_svm_partial",
    "Verif.Props.C28_huber_svm_fails",
    "Verif.Props.C28_logistic_partial",
    "Verif.Props.C28_logistic_fails",
    "Verif.Props.C28_quadratic_partial",
    "Verif.Props.C28_quadratic_fails",
    "Verif.Props.C28_multinomial_partial",
    "Verif.Props.C28_multinomial_fails",
    "Verif.Props.C28_mglm_partial",
    "Verif.Props.C28_stacked_partial",
    "Verif.Props.C28_stacked_fails",
    "Verif.Props.C28_cox_partial"
   ],
   "note": "The property is false of the code as stated in these cases, proved with witnesses: [C28_huber_svm_fails] **C28** fails for huber_svm with any other positive smoothing parameter: there are binary data and a point at which the returned vector is not the gradient of the returned value. [C28_logistic_fails] **C28** fails for logistic_loglike at `x = 100`: the value returned there has no gradient at all. [C28_quadratic_fails] **C28** fails for `quadratic_loss` with a matrix that is not symmetric. [C28_multinomial_fails] **C28** fails for the multinomial loss where a predictor exceeds 50: the value is constant in it, the gradient returned is not zero. [C28_stacked_fails] **C28** fails for columns with weights of their own: the columns share one weight array and multiply it in place, so the second column is weighted by both columns' weights. Two equal columns with weight 2 at `x = 1` give `2·1/2 + 4·1/2`, not `2·1/2 + 2·1/2`. Proved in part: [C28_huber_svm_partial] **C28** huber_svm with smoothing parameter 1: the value is the weighted sum of smoothed hinge losses of the margins `(2 yᵢ - 1) tᵢ` and the returned gradient is its gradient at every point. Missing: any other smoothing parameter, for which it is false (`C28_huber_svm_fails`). [C28_logistic_partial] **C28** logistic_loglike. The returned gradient is the gradient of the returned value at every point where no `xᵢ - oᵢ` equals 100; where all are at most 100 the value is the binomial negative log-likelihood; and everywhere the value and the gradient are within `coef ∑ wᵢ mᵢ e⁻¹⁰⁰` and `coef wᵢ mᵢ e⁻¹⁰⁰` of the likelihood and its gradient. Missing: points with a coordinate at 100, where the value jumps (`C28_logistic_fails`). [C28_quadratic_partial] **C28** quadratic_loss: with no `Q`, a diagonal `Q`, a symmetric `Q` or a self-adjoint transform the returned gradient is the gradient of the returned value `coef/2 (x-o)'Q(x-o)` at every point. Missing: a `Q` that is not symmetric, which the constructor accepts and for which it is false (`C28_quadratic_fails`). [C28_multinomial_partial] **C28** multinomial and baseline multinomial losses: where no linear predictor exceeds 50 in absolute value the value returned is `coef` times the weighted negative log likelihood of the counts at `x - offset`, and the gradient returned is the gradient of the value. Missing: beyond 50 the code clips the predictors (`C28_multinomial_fails`). [C28_mglm_partial] **C28** for `mglm` with a multinomial loss: where no predictor is clipped the value is the weighted negative log likelihood of the predictors and the gradient returned is the gradient of the value in the coefficient matrix. [C28_stacked_partial] **C28** stacked losses whose columns have no weights of their own (what the classmethods build): the value is `coef` times the sum over columns of the column losses, with the weights of the stack times those of the caller, and the gradient returned is its gradient wherever the column losses' are. Missing: columns with weights of their own (`C28_stacked_fails`). [C28_cox_partial] **C28** for the Cox loss: the gradient returned is the gradient of the value returned, at every point. (Partial for the same reason as `C51_value_partial`.)"
  },
  {
   "property": "C29",
   "status": "partial",
   "theorems": [
    "Verif.Props.C29_multinomial_partial",
    "Verif.Props.C29_multinomial_fails",
    "Verif.Props.C29_gaussian",
    "Verif.Props.C29_poisson",
    "Verif.Props.C29_huber",
    "Verif.Props.C29_huber_svm_partial",
    "Verif.Props.C29_logistic_partial",
    "Verif.Props.C29_logistic_fails",
    "Verif.Props.C29_huber_svm_fails",
    "Verif.Props.C29_cox_partial"
   ],
   "note": "The property is false of the code as stated in these cases, proved with witnesses: [C29_multinomial_fails] **C29** fails for the multinomial loss over all arguments: clipping at -50 makes it concave there. [C29_logistic_fails] **C29** fails for logistic_loglike across 100: the returned value is not a convex function. [C29_huber_svm_fails] **C29** fails for huber_svm with any smoothing parameter below 1: the returned value is not a convex function. Proved in part: [C29_multinomial_partial] **C29** the multinomial losses are convex on the set of predictors that are not clipped, for nonnegative `coef` and weights. Missing: beyond it (`C29_multinomial_fails`). [C29_huber_svm_partial] **C29** huber_svm with smoothing parameter 1 is convex. Missing: other smoothing parameters; below 1 it is false (`C29_huber_svm_fails`). [C29_logistic_partial] **C29** logistic_loglike is convex on the region where every `xᵢ - oᵢ` is at most 100. Missing: beyond 100, where it is false (`C29_logistic_fails`) although the value is within `coef ∑ wᵢ mᵢ e⁻¹⁰⁰` of a convex function (`C28_logistic_partial`). [C29_cox_partial] **C29** the Cox loss is convex in its argument (for nonnegative weights and risk sets of positive weight; otherwise it is nan)."
  },
  {
   "property": "C30",
   "status": "partial",
   "theorems": [
    "Verif.Props.C30_gaussian",
    "Verif.Props.C30_poisson_partial",
    "Verif.Props.C30_logistic_partial",
    "Verif.Props.C30_offset_fails",
    "Verif.Props.C30_logistic_fails",
    "Verif.Props.C30_glm_partial",
    "Verif.Props.C30_cox_partial",
    "Verif.Props.C30_cox_coef_fails"
   ],
   "note": "The property is false of the code as stated in these cases, proved with witnesses: [C30_offset_fails] **C30** fails with an offset: the poisson and logistic Hessians are evaluated at the wrong point. [C30_logistic_fails] **C30** fails for logistic_loglike when one predictor exceeds 100: at `x = (0, 0, 200)` the middle entry is computed from `exp(100)` because the integer index array is negated bitwise (binary.py 170). [C30_cox_coef_fails] **C30** fails for the Cox loss with `coef = 2`: `hessian_mult` returns half the derivative of the gradient. Proved in part: [C30_poisson_partial] **C30** poisson_loglike.hessian, without an offset. Missing: with an offset, which `hessian` does not apply, it is false (`C30_offset_fails`). [C30_logistic_partial] **C30** logistic_loglike.hessian, without an offset and with every linear predictor below 100. Missing: with an offset (`C30_offset_fails`) and with predictors above 100 (`C30_logistic_fails`) it is false. [C30_glm_partial] **C30** `glm.hessian(β)` is the derivative of `glm`'s gradient when neither the glm nor the loss has an offset and the loss' own Hessian is the derivative of its gradient at `Xβ`. Missing: offsets, which `glm.hessian` does not apply. [C30_cox_partial] **C30** `hessian_mult(x, z)` of the Cox loss is the derivative of the returned gradient times `z`, at every point and for every direction, offsets included, for `coef = 1`. Missing: other coefficients, which `hessian_mult` ignores (`C30_cox_coef_fails`), and risk sets of weight zero."
  },
  {
   "property": "C31",
   "status": "partial",
   "theorems": [
    "Verif.Props.C31_stacked_partial",
    "Verif.Props.C31_stacked_fails",
    "Verif.Props.C31_caller_partial",
    "Verif.Props.C31_caller_fails",
    "Verif.Props.C31_glm_partial",
    "Verif.Props.C31_glm_classmethods",
    "Verif.Props.C31_glm_fails",
    "Verif.Props.C31_cox",
    "Verif.Props.C31_cox_alias_fails"
   ],
   "note": "The property is false of the code as stated in these cases, proved with witnesses: [C31_stacked_fails] **C31** fails for a stacked loss with weights: evaluating it multiplies the caller's array in place. [C31_caller_fails] **C31** fails for the caller's array: a gaussian loss with case weights `1/2` halves the array it is given. [C31_glm_fails] **C31** fails when the saturated loss has its own case weights: two evaluations at the same point differ, since each multiplies the glm's weights by the loss' once more. [C31_cox_alias_fails] **C31** fails for a gradient returned by a Cox loss with `coef = 1`: it is the object's buffer, so the next evaluation overwrites the array the caller holds. Proved in part: [C31_stacked_partial] **C31** a stacked loss leaves the caller's weights alone if neither it nor its columns carry weights, and its later results do not depend on the evaluation. [C31_caller_partial] **C31** a loss without case weights of its own leaves the caller's array as it was. Missing: with own case weights it does not (`C31_caller_fails`). [C31_glm_partial] **C31** history is irrelevant for a glm whose saturated loss has no case weights of its own: after any sequence of evaluations and Hessians, every evaluation gives what it would have given at the start, and the glm's (caller's) case weights array is unchanged. Missing: a saturated loss with its own case weights (`C31_glm_fails`)."
  },
  {
   "property": "C32",
   "status": "partial",
   "theorems": [
    "Verif.Props.C32_mglm_copy",
    "Verif.Props.C32_mglm_subsample_partial",
    "Verif.Props.C32_multinomial_subsample_fails",
    "Verif.Props.C32_multinomial_shared_fails",
    "Verif.Props.C32_multinomial_subsample_weights",
    "Verif.Props.C32_stacked_partial",
    "Verif.Props.C32_copy_smooth",
    "Verif.Props.C32_copy_smooth_partial",
    "Verif.Props.C32_huber_copy_fails",
    "Verif.Props.C32_copy_objective_partial",
    "Verif.Props.C32_copy_objective_shift_partial",
    "Verif.Props.C32_copy_objective_fails",
    "Verif.Props.C32_subsample_partial",
    "Verif.Props.C32_subsample_twice",
    "Verif.Props.C32_heap_refines",
    "Verif.Props.C32_original_unchanged",
    "Verif.Props.C32_glm_copy",
    "Verif.Props.C32_glm_subsample",
    "Verif.Props.C32_cox_copy",
    "Verif.Props.C32_cox_subsample_partial",
    "Verif.Props.C32_cox_subsample_fails"
   ],
   "note": "The property is false of the code as stated in these cases, proved with witnesses: [C32_multinomial_subsample_fails] **C32** fails for the multinomial losses themselves: `subsample(idx)` evaluates exactly like the original whatever `idx` is (the weights it sets are never consulted). [C32_multinomial_shared_fails] **C32** fails for the multinomial losses: with weights given, `subsample` writes into the original's own weight array (`copy` is shallow), here setting the weight of case 0 of the *original* to zero. [C32_huber_copy_fails] **C32** fails for huber_loss and huber_svm: the copy of a loss with case weight 2 has half its value. [C32_copy_objective_fails] **C32** fails for the full `objective` of poisson and logistic losses: each copy adds the deviance constant once more (here `- log 2` for the count 2, and `- 2 log 2` for one success out of two). [C32_cox_subsample_fails] **C32** fails for a subsample that drops the case with the largest time: its value is nan. Proved in part: [C32_mglm_subsample_partial] **C32** for `mglm`: `subsample(idx)` is the likelihood of the cases in `idx` with the same coefficients and data (where no predictor is clipped). [C32_stacked_partial] **C32** `copy` and `subsample` of a stacked loss (columns without weights of their own): the copy evaluates alike, the subsample is the sum of the column losses evaluated with the weights of the cases outside `idx` set to zero. [C32_copy_smooth_partial] **C32** the same for all five losses when the loss has no case weights. Missing: huber_loss and huber_svm with case weights, which their `__copy__` drops (`C32_huber_copy_fails`). [C32_copy_objective_partial] **C32** the full `objective` (value plus the quadratic) of a copy is the loss' own for gaussian losses. Missing: poisson and logistic, whose constructor adds the deviance constant again (`C32_copy_objective_fails`). [C32_copy_objective_shift_partial] **C32** what a copy of a poisson or logistic loss does to the full `objective`: it is shifted at every point by the same deviance constant, so it is preserved exactly when that constant is zero, and differences of objective values (hence minimisers) are always preserved. Missing: equality itself (`C32_copy_objective_fails`). [C32_subsample_partial] **C32** `loss.subsample(idx)` never raises and is the loss restricted to the selected cases, existing weights kept: there are per-case losses `ℓᵢ` and derivatives `dᵢ` such that the loss evaluates to `coef ∑ᵢ wᵢ ℓᵢ(xᵢ - oᵢ)` and the subsampled loss to the same sum over `i ∈ idx`, with gradient entries zero outside. For gaussian, poisson and logistic losses always, for the huber losses when there are no case weights. Missing: the huber losses with case weights (`C32_huber_copy_fails` shows the copy the method starts from has lost them). [C32_cox_subsample_partial] **C32** `subsample(idx)` of a Cox loss is the partial likelihood of the selected cases (both the sum over events and the risk sets range over `idx`), if the largest time still has positive weight. Missing: dropping all such cases makes the value nan (`C32_cox_subsample_fails`)."
  },
  {
   "property": "C33",
   "status": "partial",
   "theorems": [
    "Verif.Props.C33_step_weight_history",
    "Verif.Props.C33_accept_partial",
    "Verif.Props.C33_monotone_partial",
    "Verif.Props.C33_monotone_convex",
    "Verif.Props.C33_no_zero_step",
    "Verif.Props.C33_terminates",
    "Verif.Props.C33_step_bound",
    "Verif.Props.C33_smooth_atom_problem",
    "Verif.Props.C33_accept_fails",
    "Verif.Props.C33_keeps_minimiser"
   ],
   "note": "The property is false of the code as stated in these cases, proved with witnesses: [C33_accept_fails] **C33 fails without convexity** (both the acceptance claim and monotonicity). The smooth function `8x³+6x²+x` with its exact gradient and the exact proximal map, started at 0 with all arguments at their defaults except `max_its=1`: the backtracking test compares gradients because the smooth value did not change, and accepts at once the step to `-1/2`, where the quadratic upper bound is false and the objective is larger than at the start by 1/4. Proved in part: [C33_accept_partial] **C33** (convex smooth part; see `C33_accept_fails` for what happens otherwise). Every step taken in a run with backtracking is the exact proximal gradient step from the working point with step size `step`, and satisfies the quadratic upper bound with constant `1/step` at the proposed point - in both branches of the acceptance test. [C33_monotone_partial] **C33** (any problem; the first two passes are not protected, see `C33_monotone_convex` and `C33_monotone_fails`). With `monotonicity_restart`, from the third entry of the history on, a finite kept objective is never followed by `inf` or by a value larger than it by more than `1e-10 * max(|obj|, 1)`."
  },
  {
   "property": "C34",
   "status": "proved",
   "theorems": [
    "Verif.Props.C34_fixed_point"
   ],
   "note": ""
  },
  {
   "property": "C35",
   "status": "partial",
   "theorems": [
    "Verif.Props.C35_sufficient_decrease",
    "Verif.Props.C35_one_step",
    "Verif.Props.C35_rate",
    "Verif.Props.C35_fista_rate",
    "Verif.Props.C35_fista_rate_lipschitz",
    "Verif.Props.C35_fista_rate_fixed",
    "Verif.Props.C35_stopping_fails"
   ],
   "note": "The property is false of the code as stated in these cases, proved with witnesses: [C35_stopping_fails] **C35** fails: the default stopping rule is not a certificate. For every tolerance and every gap there is a convex problem (`f = c/2 x²` in one dimension, gradient `1/2`-Lipschitz, exact proximal map) and a start from which `fit`, with all other arguments at their defaults except `min_its = 1`, stops after one recorded pass because the objective changed by a relative amount below the tolerance, while the returned point is worse than the minimum by more than the gap."
  },
  {
   "property": "C36",
   "status": "partial",
   "theorems": [
    "Verif.Props.C36_objective",
    "Verif.Props.C36_restores_partial",
    "Verif.Props.C36_solve_objective",
    "Verif.Props.C36_raise_fails"
   ],
   "note": "The property is false of the code as stated in these cases, proved with witnesses: [C36_raise_fails] **C36 fails for a call that raises**: on the lasso, `solve(identity_quadratic(-1, ...))` makes the first proximal step raise ValueError (total coefficient 0), and the quadratic of the problem keeps the added part. Proved in part: [C36_restores_partial] **C36** (calls that return; see `C36_raise_fails`). After any sequence of `solve` calls that all return, whatever quadratics were passed, the quadratic of the problem is the original one, and so are the loss and the atom."
  },
  {
   "property": "C37",
   "status": "partial",
   "theorems": [
    "Verif.Props.C37_objective",
    "Verif.Props.C37_proximal",
    "Verif.Props.C37_proximal_objective",
    "Verif.Props.C37_proximal_total",
    "Verif.Props.C37_rejects_partial",
    "Verif.Props.C37_l1norm_correct",
    "Verif.Props.C37_rejects_fails"
   ],
   "note": "The property is false of the code as stated in these cases, proved with witnesses: [C37_rejects_fails] C37 fails as stated: with the default arguments, and even with `test_for_overlap=True`, the constructor accepts two atoms on the same coordinate, and the point `proximal` then returns does not minimise the objective. Proved in part: [C37_rejects_partial] C37 (partial): the constructor called with `test_for_overlap=True` raises exactly when two groups select different sets of positions with a common element. Missing: the default is no test, and two groups selecting the same set are never detected (`C37_rejects_fails`)."
  },
  {
   "property": "C38",
   "status": "partial",
   "theorems": [
    "Verif.Props.C38_secant",
    "Verif.Props.C38_posDef_step",
    "Verif.Props.C38_history_partial",
    "Verif.Props.C38_init",
    "Verif.Props.C38_convex_never_raises",
    "Verif.Props.C38_solve",
    "Verif.Props.C38_inner_problem",
    "Verif.Props.C38_fixed_point",
    "Verif.Props.C38_negative_curvature_fails",
    "Verif.Props.C38_null_solution_fails"
   ],
   "note": "The property is false of the code as stated in these cases, proved with witnesses: [C38_negative_curvature_fails] C38 fails as stated: an update with slightly negative curvature is accepted and destroys positive definiteness. [C38_null_solution_fails] C38 fails as stated: when the solution is 0 and the run starts there, as in a lasso with large lagrange, the convergence test compares `0 < 0`, the update divides by zero and the matrix becomes non-finite. Proved in part: [C38_history_partial] C38 (partial): from a symmetric positive definite start, positive definiteness is preserved over the whole history of accepted updates, provided every accepted pair has positive curvature. Missing: the code also accepts pairs with `-1e-5 ≤ y·s < 0` (`C38_negative_curvature_fails`)."
  },
  {
   "property": "C39",
   "status": "partial",
   "theorems": [
    "Verif.Props.C39_assertion",
    "Verif.Props.C39_suboptimality",
    "Verif.Props.C39_optimal",
    "Verif.Props.C39_complete",
    "Verif.Props.C39_all_unpenalized_fails"
   ],
   "note": "The property is false of the code as stated in these cases, proved with witnesses: [C39_all_unpenalized_fails] C39 needs a positive weight: with all weights 0 the mean of the positive weights is nan, every comparison with it is False, and the check passes at a point whose gradient is not 0."
  },
  {
   "property": "C40",
   "status": "partial",
   "theorems": [
    "Verif.Props.C40_screen_partial",
    "Verif.Props.C40_screen_zero_start",
    "Verif.Props.C40_terminates",
    "Verif.Props.C40_from_solver",
    "Verif.Props.C40_lasso_check_active",
    "Verif.Props.C40_lasso_exact",
    "Verif.Props.C40_unpenalized_fails",
    "Verif.Props.C40_strong_rule",
    "Verif.Props.C40_strong_set",
    "Verif.Props.C40_path_strong_set",
    "Verif.Props.C40_path_check_on"
   ],
   "note": "The property is false of the code as stated in these cases, proved with witnesses: [C40_unpenalized_fails] With an unpenalised intercept and the default `check_active = False`: the intercept never enters a subproblem, but its null value stays in the solution. Started at the null solution `(1, 0)` with its gradient `(0, -1)`, with an exact subproblem solver, the run appends `(1, 7/10)` at the lagrange value `1/2` without a warning; its objective is larger than that of the null solution, and the gradient used in the check is not that of the loss at the appended solution. Proved in part: [C40_screen_partial] C40: for every path object, every subproblem solver (it may be inexact, stateful, adversarial), every strong set rule, every lagrange sequence and starting point: a solution appended without the convergence warning has passed the KKT check over ALL groups, at its own lagrange value, with the gradient at the linear predictor of the subproblem."
  },
  {
   "property": "C41",
   "status": "partial",
   "theorems": [
    "Verif.Props.C41_order_partial",
    "Verif.Props.C41_screen",
    "Verif.Props.C41_terminates",
    "Verif.Props.C41_from_solver",
    "Verif.Props.C41_lasso",
    "Verif.Props.C41_ties_fails",
    "Verif.Props.C41_inexact_solver_fails"
   ],
   "note": "The property is false of the code as stated in these cases, proved with witnesses: [C41_ties_fails] A repeated lagrange value is skipped when it falls into another round: with `step_lagrange = 1` and the sequence `[2, 2, 1]` only two solutions are returned. [C41_inexact_solver_fails] With a subproblem solver that stays at zero `basil` never returns: no number of rounds suffices. Proved in part: [C41_order_partial] C41: for every path object, subproblem solver and (strictly decreasing) lagrange sequence: when `basil` returns, it has appended exactly one solution for each value of the sequence, in order."
  },
  {
   "property": "C42",
   "status": "partial",
   "theorems": [
    "Verif.Props.C42_partition",
    "Verif.Props.C42_sizes_partial",
    "Verif.Props.C42_rounded_sizes_partial",
    "Verif.Props.C42_ieee_sizes_partial",
    "Verif.Props.C42_ieee_sizes_fails",
    "Verif.Props.C42_ieee_leave_one_out_fails",
    "Verif.Props.C42_coef_factor",
    "Verif.Props.C42_one_fold_fails"
   ],
   "note": "The property is false of the code as stated in these cases, proved with witnesses: [C42_ieee_sizes_fails] In IEEE double arithmetic the sizes can differ by two: with 44 cases and 22 folds there is a test set of three cases and one of a single case, whatever the shuffle. [C42_ieee_leave_one_out_fails] Leave-one-out in IEEE double arithmetic: with `cv = n = 22` two cases share a fold and there are only 21 folds. [C42_one_fold_fails] With a single fold the training set is empty and the factor divides by zero. Proved in part: [C42_sizes_partial] C42, exact arithmetic: every test set has `⌊n/cv⌋` or `⌊n/cv⌋ + 1` cases, so two test sets differ by at most one case; and there are exactly `cv` folds when `cv ≤ n`. [C42_rounded_sizes_partial] C42 in floating point: when the rounding has relative error at most `ε` and `n * cv` is small compared to `1/ε`, every test set has between `⌊n/cv⌋ - 1` and `⌊n/cv⌋ + 2` cases: test sets differ by at most three cases. [C42_ieee_sizes_partial] C42 for the IEEE arithmetic of the code: as long as `n * cv ≤ 2⁵¹` the test sets have between `⌊n/cv⌋ - 1` and `⌊n/cv⌋ + 2` cases."
  },
  {
   "property": "C43",
   "status": "partial",
   "theorems": [
    "Verif.Props.C43_sequence",
    "Verif.Props.C43_one_step_fails",
    "Verif.Props.C43_null_optimal",
    "Verif.Props.C43_threshold"
   ],
   "note": "The property is false of the code as stated in these cases, proved with witnesses: [C43_one_step_fails] C43 fails for `nstep = 1`: the only value is `lagrange_proportion * lagrange_max / alpha`."
  },
  {
   "property": "C44",
   "status": "partial",
   "theorems": [
    "Verif.Props.C44_differences_of_polynomials",
    "Verif.Props.C44_trend_filter",
    "Verif.Props.C44_right_inverse_partial",
    "Verif.Props.C44_inverse_adjoint_partial",
    "Verif.Props.C44_unsorted_inverse_fails",
    "Verif.Props.C44_inverse_adjoint_2d_fails"
   ],
   "note": "The property is false of the code as stated in these cases, proved with witnesses: [C44_unsorted_inverse_fails] C44 fails for unsorted knots: `trend_filter_inverse` uses the steps of the sorted knots, `trend_filter` those of the knots as given, so with knots `1, 0` the composition is `-1` instead of the identity. [C44_inverse_adjoint_2d_fails] C44 fails for 2-dimensional arrays: `adjoint_map` accumulates along the wrong axis. Proved in part: [C44_right_inverse_partial] C44: with sorted knots the first order trend filter undoes `trend_filter_inverse` at every position where the two knots differ (everywhere for distinct knots), and the output of `trend_filter_inverse` has mean zero for any knots. Missing: unsorted knots, see `C44_unsorted_inverse_fails`. [C44_inverse_adjoint_partial] C44: `adjoint_map` of `trend_filter_inverse` is the transpose of `linear_map` on 1-dimensional arrays."
  },
  {
   "property": "C45",
   "status": "partial",
   "theorems": [
    "Verif.Props.C45_all_slices_partial",
    "Verif.Props.C45_all_slices_fails",
    "Verif.Props.C45_interval_means",
    "Verif.Props.C45_adjoint"
   ],
   "note": "The property is false of the code as stated in these cases, proved with witnesses: [C45_all_slices_fails] C45 does not hold as documented (\"the average over all intervals of a minimum size\"): no interval ending at the last position is ever used. Proved in part: [C45_all_slices_partial] C45: without `slices` the intervals used are exactly the `[i, j)` with `j - i ≥ minsize` and `j ≤ p - 1`, each once."
  },
  {
   "property": "C46",
   "status": "proved",
   "theorems": [
    "Verif.Props.C46_formD",
    "Verif.Props.C46_formD_smaller",
    "Verif.Props.C46_adjoint"
   ],
   "note": ""
  },
  {
   "property": "C47",
   "status": "partial",
   "theorems": [
    "Verif.Props.C47_sparse_fails",
    "Verif.Props.C47_returns_partial",
    "Verif.Props.C47_unscaled",
    "Verif.Props.C47_centered",
    "Verif.Props.C47_scaled"
   ],
   "note": "The property is false of the code as stated in these cases, proved with witnesses: [C47_sparse_fails] C47: `normalize` fails only for sparse input with `center=False, scale=True` (`tmp` is undefined). Proved in part: [C47_returns_partial] C47: in every other case a transform is returned."
  },
  {
   "property": "C48",
   "status": "partial",
   "theorems": [
    "Verif.Props.C48_smoothed",
    "Verif.Props.C48_zero_coef_rejected",
    "Verif.Props.C48_atom_with_quadratic_fails"
   ],
   "note": "The property is false of the code as stated in these cases, proved with witnesses: [C48_atom_with_quadratic_fails] C48 fails for an atom which already has a quadratic term: `smoothed` raises TypeError (an unknown keyword is passed to the constructor of `smooth_conjugate`) for every valid smoothing quadratic."
  },
  {
   "property": "C49",
   "status": "partial",
   "theorems": [
    "Verif.Props.C49_no_columns",
    "Verif.Props.C49_weights_column",
    "Verif.Props.C49_offset_column",
    "Verif.Props.C49_both_columns",
    "Verif.Props.C49_response_shape",
    "Verif.Props.C49_single_observation_fails",
    "Verif.Props.C49_missing_columns",
    "Verif.Props.C49_score_weights",
    "Verif.Props.C49_sample_weight_ignored_fails",
    "Verif.Props.C49_score_mutates_fails",
    "Verif.Props.C49_gaussian_scores",
    "Verif.Props.C49_fit_score",
    "Verif.Props.C49_accuracy",
    "Verif.Props.C49_classifier_accuracy_fails",
    "Verif.Props.C49_logistic_proba",
    "Verif.Props.C49_multinomial_proba_fails"
   ],
   "note": "The property is false of the code as stated in these cases, proved with witnesses: [C49_single_observation_fails] C49 fails for one observation: the squeezed response is not a vector of length one but a 0-dimensional array, and a two column response (successes and trials, times and censoring) becomes a vector. [C49_sample_weight_ignored_fails] C49 fails: without a case weight column `score` ignores `sample_weight` altogether, for every estimator, argument and sample weights. [C49_score_mutates_fails] C49 fails: scoring with sample weights overwrites the case weight column of the caller's `y` by the product. [C49_classifier_accuracy_fails] C49 fails for the classifiers: `score` compares the labels with the *linear predictors*. Whenever no linear predictor equals a label the reported accuracy is 0 — also when `predict` gets every label right, as in the witness. [C49_multinomial_proba_fails] C49 fails for `predict_proba` of the multinomial classifier: three observations and two classes raise, and two observations of two classes give a first row that sums to 2/3."
  },
  {
   "property": "C50",
   "status": "partial",
   "theorems": [
    "Verif.Props.C50_bisection",
    "Verif.Props.C50_dual_norm_exists",
    "Verif.Props.C50_sparse_group_partial",
    "Verif.Props.C50_tolerance_fails",
    "Verif.Props.C50_strong_terms_partial"
   ],
   "note": "The property is false of the code as stated in these cases, proved with witnesses: [C50_tolerance_fails] C50 fails as stated: for one feature with lasso weight 1, no group weight and the point 1, the dual norm is 1, and `gauge_function_dual` with its default `tol=1e-10` returns a number below `1 - 9e-8`: the tolerance of `inside_set` is a thousand times larger than the one asked of the gauge. Proved in part: [C50_sparse_group_partial] C50 (partial): `gauge_function_dual` of a sparse group LASSO atom, i.e. `sparse_group_lasso_dual.seminorm` with lagrange 1, for every point: the search ends, and its answer is within relative tolerance `tol / (1 - tol/2)` of the dual norm `sup {⟨x,z⟩ : Σ a_i|z_i| + Σ w_g‖z[g]‖ ≤ 1}` — up to the factor `1 + η` the tolerance `1e-7` of `inside_set` costs, which is what is missing from the full property. `ρ` is any lower bound of the total weight of a feature. [C50_strong_terms_partial] C50: the search behind `sparse_group_lasso_dual.terms` (one group, `lasso` weights and a group weight `w`): its answer approximates the dual norm of `Σ a_i|z_i| + w‖z‖`, with relative tolerance `tol / (1 - tol/2)` and the factor `1 + insideTol / ρ` that the tolerance added to the group weight costs."
  },
  {
   "property": "C51",
   "status": "partial",
   "theorems": [
    "Verif.Props.C51_value_partial",
    "Verif.Props.C51_order_irrelevant",
    "Verif.Props.C51_zero_risk_fails",
    "Verif.Props.C51_set_data_fails",
    "Verif.Props.C51_argsort_exists"
   ],
   "note": "The property is false of the code as stated in these cases, proved with witnesses: [C51_zero_risk_fails] **C51** fails when some risk set has weight zero, by the weights of the loss or those of the caller: the loops return nan as value, even if the case itself is censored or has weight zero. [C51_set_data_fails] **C51** fails after assigning new data through the `data` property: the ordering is stale and the value is not the partial likelihood of the new data. Proved in part: [C51_value_partial] **C51** for every reachable Cox loss (any times, ties, sorting permutation, censoring, nonnegative weights, any evaluation history) in which every risk set has positive weight: the C loops return `coef` times Breslow's negative log partial likelihood at `x - offset`, and a gradient array; no nan. Missing: risk sets of weight zero, where they return nan (`C51_zero_risk_fails`)."
  },
  {
   "property": "C52",
   "status": "partial",
   "theorems": [
    "Verif.Props.C52_at_most_partial",
    "Verif.Props.C52_at_most_start",
    "Verif.Props.C52_returns_number",
    "Verif.Props.C52_overestimates_fails"
   ],
   "note": "The property is false of the code as stated in these cases, proved with witnesses: [C52_overestimates_fails] C52 does not hold as stated: with the default arguments (`max_its=500, tol=1e-8`) and the 1 x 1 identity matrix the starting vector `1 + 10⁻⁹` gives `1 + 10⁻⁹ > 1`, and with `max_its=1` the starting vector 2 gives 2. Proved in part: [C52_at_most_partial] C52: if `‖T x‖² ≤ L ‖x‖²` for all `x` and the loop does not stop after its first iteration, the value returned is at most `L`, for every starting vector, every tolerance and every `max_its ≥ 2`. Missing: runs that stop after one iteration (see `C52_overestimates_fails`)."
  },
  {
   "property": "C53",
   "status": "partial",
   "theorems": [
    "Verif.Props.C53_selector_read_now_partial",
    "Verif.Props.C53_selector_alias",
    "Verif.Props.C53_selector_fails",
    "Verif.Props.C53_posneg",
    "Verif.Props.C53_posneg_fails",
    "Verif.Props.C53_gradient_partial"
   ],
   "note": "The property is false of the code as stated in these cases, proved with witnesses: [C53_selector_fails] C53 fails for `selector`: the array returned by the first call shows another value after the second call. It also fails for later results when the caller modifies a returned array: the entry outside the selection is never reset. [C53_posneg_fails] C53 fails for `posneg`. Proved in part: [C53_selector_read_now_partial] C53, what holds: after any history `us` of calls on a fresh selector, the array returned by the next call `adjoint_map(u)`, read before any further call, is the right one, and arrays that are not results of this object are not modified. [C53_gradient_partial] C53, gradients of `cox_loglike` and `stacked_loglike`: with `coef = 1` the returned array is the internal buffer, so it shows the gradient of the last evaluation; with any other `coef` it keeps its value through later calls."
  },
  {
   "property": "C54",
   "status": "partial",
   "theorems": [
    "Verif.Props.C54_set_offset_partial",
    "Verif.Props.C54_history",
    "Verif.Props.C54_zero_offset_fails"
   ],
   "note": "The property is false of the code as stated in these cases, proved with witnesses: [C54_zero_offset_fails] C54 fails: assigning an identically zero array leaves the old offset in force. Proved in part: [C54_set_offset_partial] C54, what holds: assigning `None` removes the offset, assigning an array that is not identically zero makes evaluation use it, whatever was there before; on construction an identically zero array means no offset."
  },
  {
   "property": "C55",
   "status": "proved",
   "theorems": [
    "Verif.Props.C55_epigraph",
    "Verif.Props.C55_epigraph_polar",
    "Verif.Props.C55_dual_epigraph_polar",
    "Verif.Props.C55_dual_epigraph"
   ],
   "note": ""
  },
  {
   "property": "C56",
   "status": "partial",
   "theorems": [
    "Verif.Props.C56_lagrange_prox_partial",
    "Verif.Props.C56_lagrange_zero_fails",
    "Verif.Props.C56_dual_bound_prox",
    "Verif.Props.C56_seminorm_feasibility_fails",
    "Verif.Props.C56_seminorm"
   ],
   "note": "The property is false of the code as stated in these cases, proved with witnesses: [C56_lagrange_zero_fails] C56: with `lagrange = 0` a zero l1 coordinate yields nan (`0 * minimum(1, 0/0)`), although the proximal point is the input. [C56_seminorm_feasibility_fails] C56: `seminorm(x, check_feasibility=True)` reports `+inf` at the feasible point 0 of a nonnegative coordinate: the test is `x.min() < tol` instead of `x.min() < -tol`. Proved in part: [C56_lagrange_prox_partial] C56: `mixed_lasso_lagrange_prox` (`mixed_lasso.proximal`) is the proximal map of the mixed penalty on its domain, for every penalty structure. (`lagrange = 0` with a zero l1 coordinate is excluded, see below.)"
  },
  {
   "property": "C57",
   "status": "partial",
   "theorems": [
    "Verif.Props.C57_seminorm",
    "Verif.Props.C57_constraint",
    "Verif.Props.C57_l1_l2_lagrange_prox_partial",
    "Verif.Props.C57_l1_l2_bound_prox_partial",
    "Verif.Props.C57_linf_l2_bound_prox_partial",
    "Verif.Props.C57_linf_l2_lagrange_prox_partial",
    "Verif.Props.C57_l1_l1_lagrange_prox",
    "Verif.Props.C57_l1_l1_bound_prox",
    "Verif.Props.C57_linf_linf_bound_prox",
    "Verif.Props.C57_linf_linf_lagrange_prox",
    "Verif.Props.C57_dual_norms",
    "Verif.Props.C57_conjugate_params",
    "Verif.Props.C57_conjugate_stale_fails",
    "Verif.Props.C57_zero_rows_fails",
    "Verif.Props.C57_linf_l2_bound_zero_fails",
    "Verif.Props.C57_block_sum_bound_prox_fails",
    "Verif.Props.C57_block_sum_constraint_fails",
    "Verif.Props.C57_block_max_constraint"
   ],
   "note": "The property is false of the code as stated in these cases, proved with witnesses: [C57_conjugate_stale_fails] C57 fails: after `penalty.lagrange = 2` the conjugate of a penalty constructed with `lagrange=1` still has `bound=1`. [C57_zero_rows_fails] C57 fails on arguments with a zero row, whatever the parameters: `l1_l2.lagrange_prox`, `l1_l2.bound_prox` and `linf_l2.lagrange_prox` return nan there. [C57_linf_l2_bound_zero_fails] C57 fails for `linf_l2.bound_prox` with `bound = 0` and a zero row: nan instead of 0. [C57_block_sum_bound_prox_fails] C57 fails for `block_sum.bound_prox`, which always returns 0: for every point of the ball except 0 this is not the projection. [C57_block_sum_constraint_fails] C57 fails for `block_sum.constraint` in bound mode: it raises for every argument, whatever assignments to `lagrange` and `bound` were made after construction. Proved in part: [C57_l1_l2_lagrange_prox_partial] C57: `l1_l2.lagrange_prox` is the proximal map of `lam Σ_i ‖z_i‖₂` on the nonzero rows. Missing: the zero rows of the argument, see `C57_zero_rows_fails`. [C57_l1_l2_bound_prox_partial] C57: `l1_l2.bound_prox` is the projection on `Σ_i ‖z_i‖₂ ≤ bound` on the nonzero rows. Missing: the zero rows. [C57_linf_l2_bound_prox_partial] C57: `linf_l2.bound_prox` is the projection on `max_i ‖z_i‖₂ ≤ bound`, for a positive bound. Missing: `bound = 0`, see `C57_linf_l2_bound_zero_fails`. [C57_linf_l2_lagrange_prox_partial] C57: `linf_l2.lagrange_prox` is the proximal map of `lam max_i ‖z_i‖₂` on the nonzero rows. Missing: the zero rows."
  },
  {
   "property": "C58",
   "status": "partial",
   "theorems": [
    "Verif.Props.C58_seminorm",
    "Verif.Props.C58_lagrange_prox",
    "Verif.Props.C58_dual_bound_prox",
    "Verif.Props.C58_dual_norm_exists",
    "Verif.Props.C58_gauge_partial",
    "Verif.Props.C58_dual_constraint",
    "Verif.Props.C58_small_fails",
    "Verif.Props.C58_terms_fails"
   ],
   "note": "The property is false of the code as stated in these cases, proved with witnesses: [C58_small_fails] C58 fails for small arguments: whenever `‖X‖ ≤ 1e-10` the computed dual norm is 0, although it is a norm. [C58_terms_fails] C58 fails for `sparse_group_block.terms`: documented as the terms summed in the seminorm, it uses `l1_weight` for both parts, so the terms of the 1×1 matrix `(1)` with weights 1 and 2 sum to 2 while the seminorm is 3. Proved in part: [C58_gauge_partial] C58 (partial): `sparse_group_block_dual.seminorm` with `lagrange=1`: the search ends and its answer is within relative tolerance `tol / (1 - tol/2)` of the dual norm, up to an absolute error `1e-10 max(‖X‖,1) / (l1 + l2)`. Missing: accuracy relative to the dual norm for small arguments, which fails (`C58_small_fails`)."
  },
  {
   "property": "C59",
   "status": "proved",
   "theorems": [
    "Verif.Props.C59_svd_exists",
    "Verif.Props.C59_nuclear_seminorm",
    "Verif.Props.C59_operator_seminorm",
    "Verif.Props.C59_nuclear_constraint",
    "Verif.Props.C59_operator_constraint",
    "Verif.Props.C59_nuclear_lagrange_prox",
    "Verif.Props.C59_operator_lagrange_prox",
    "Verif.Props.C59_nuclear_bound_prox",
    "Verif.Props.C59_operator_bound_prox",
    "Verif.Props.C59_dual_of_operator",
    "Verif.Props.C59_dual_of_nuclear"
   ],
   "note": ""
  },
  {
   "property": "C60",
   "status": "partial",
   "theorems": [
    "Verif.Props.C60_nuclear_epigraph",
    "Verif.Props.C60_nuclear_epigraph_polar",
    "Verif.Props.C60_operator_epigraph",
    "Verif.Props.C60_operator_epigraph_polar",
    "Verif.Props.C60_nuclear_polar",
    "Verif.Props.C60_operator_polar",
    "Verif.Props.C60_nuclear_polar_constraint",
    "Verif.Props.C60_operator_constraint",
    "Verif.Props.C60_operator_polar_constraint",
    "Verif.Props.C60_nuclear_constraint_partial",
    "Verif.Props.C60_nuclear_constraint_fails"
   ],
   "note": "The property is false of the code as stated in these cases, proved with witnesses: [C60_nuclear_constraint_fails] Counterexample: the `1 × 1` matrix `(1)` with `t = 0` is accepted by `nuclear_norm_epigraph.constraint` although its nuclear norm is `1`. Proved in part: [C60_nuclear_constraint_partial] `nuclear_norm_epigraph.constraint` compares the nuclear norm *minus the operator norm* with `(1 + tol) t`; so it accepts every member of the cone, and more. Missing: it should reject what is outside the cone, which is false (`C60_nuclear_constraint_fails`)."
  },
  {
   "property": "C61",
   "status": "partial",
   "theorems": [
    "Verif.Props.C61_projection",
    "Verif.Props.C61_complement",
    "Verif.Props.C61_polar",
    "Verif.Props.C61_conjugate",
    "Verif.Props.C61_get_conjugate_fails",
    "Verif.Props.C61_conjugate_quadratic_fails",
    "Verif.Props.C61_projection_constraint",
    "Verif.Props.C61_complement_constraint_partial",
    "Verif.Props.C61_complement_constraint_fails"
   ],
   "note": "The property is false of the code as stated in these cases, proved with witnesses: [C61_get_conjugate_fails] The documented method `get_conjugate()` raises KeyError for every instance without quadratic, although the property works. [C61_conjugate_quadratic_fails] A `constraint` with a nonzero quadratic coefficient has no `conjugate`: NameError. [C61_complement_constraint_fails] Counterexample: for the basis `[[1, 0]]` the point `(0, 1)` of the complement is rejected and the point `(1, 0)`, orthogonal to the complement, is accepted. Proved in part: [C61_complement_constraint_partial] `projection_complement.constraint` compares the size of the projection on the complement — not the distance to it — with the tolerance: it accepts exactly the points of relative distance below `tol` to the *span*. Missing: it should accept exactly the points close to the complement, which is false (`C61_complement_constraint_fails`)."
  },
  {
   "property": "C62",
   "status": "partial",
   "theorems": [
    "Verif.Props.C62_returns",
    "Verif.Props.C62_fixed_point_doubled_loss",
    "Verif.Props.C62_rate_doubled_loss",
    "Verif.Props.C62_nonsmooth_partial",
    "Verif.Props.C62_smooth_partial",
    "Verif.Props.C62_wrong_minimiser_fails"
   ],
   "note": "The property is false of the code as stated in these cases, proved with witnesses: [C62_wrong_minimiser_fails] Counterexample: for `½(x - 2)² + |x|`, whose minimiser is `1` with value `3/2`, `gengrad` started at the minimiser with the right Lipschitz constant returns `3/2`, with objective `13/8`, for every `max_its ≥ 1`, every `0 ≤ tol ≤ 1/100` and both stopping rules. Proved in part: [C62_nonsmooth_partial] C62 for a problem without smooth part (`simple_problem.nonsmooth`): the fixed points are the minimisers of the objective and after `k` steps the objective is within `lipschitz ‖x0 - u‖² / (2 k)` of its value at any feasible `u`. Missing: a nonzero smooth part, for which the claim is false (`C62_wrong_minimiser_fails`). [C62_smooth_partial] C62 for a problem without nonsmooth part (`simple_problem.smooth`): the fixed points are the minimisers of `f` and after `k` steps `f` is within `lipschitz ‖x0 - u‖² / (4 k)` of its value at any `u`. Missing: a nonsmooth part next to the loss."
  },
  {
   "property": "C63",
   "status": "partial",
   "theorems": [
    "Verif.Props.C63_nesta_returns",
    "Verif.Props.C63_nesta_default",
    "Verif.Props.C63_nesta_empty_fails",
    "Verif.Props.C63_nesta_fejer",
    "Verif.Props.C63_nesta_terminates",
    "Verif.Props.C63_nesta_suboptimality",
    "Verif.Props.C63_nesta_fixed_point",
    "Verif.Props.C63_tfocs_returns",
    "Verif.Props.C63_tfocs_fejer",
    "Verif.Props.C63_tfocs_terminates",
    "Verif.Props.C63_tfocs_fixed_point",
    "Verif.Props.C63_nesta_dual_infeasible_fails",
    "Verif.Props.C63_tfocs_primal_infeasible_fails"
   ],
   "note": "The property is false of the code as stated in these cases, proved with witnesses: [C63_nesta_empty_fails] an empty list of smoothing constants: `primal_coef` is unbound, the call raises. [C63_nesta_dual_infeasible_fails] Counterexample: the dual returned by `nesta` need not be feasible. On `½(x - 3)² + |x|`, whose dual variable is bounded by `1`, exact passes with `epsilon = [5, 5]` end with the extrapolated dual `49/48`. [C63_tfocs_primal_infeasible_fails] Counterexample: the primal returned by `tfocs` need not be feasible. For `minimise ½x² - 3x` over `|x| ≤ 1`, given as the constraint `F`, the transform `D = -1` and the conjugate `G(u) = ½(u - 3)²`, exact passes with `epsilon = [5, 5]` end with `49/48`."
  },
  {
   "property": "C64",
   "status": "partial",
   "theorems": [
    "Verif.Props.C64_fixed_point_partial",
    "Verif.Props.C64_lyapunov_partial",
    "Verif.Props.C64_residual_sum_partial",
    "Verif.Props.C64_convergence_partial",
    "Verif.Props.C64_nonsymmetric_fails"
   ],
   "note": "The property is false of the code as stated in these cases, proved with witnesses: [C64_nonsymmetric_fails] Counterexample: for a transform that is not symmetric the method does not converge to a solution. For the loss `½‖x - (1,0)‖²`, a zero penalty and `D` the rotation by a right angle, started at zero with `ρ = 1` and exact inner solvers, the first coordinate of `loss_coefs` is at most `1/2` after any number of passes, and the objective stays `1/8` above the optimum, which is at `(1, 0)`. Proved in part: [C64_fixed_point_partial] C64 (symmetric `D`): a state that a pass leaves unchanged solves the problem: its `loss_coefs` minimise `f(x) + g(D x + a)` over the points with `D x + a` in `T`, and `atom_coefs` are `D x + a`. Missing: nonsymmetric `D`, for which the claim is false (`C64_nonsymmetric_fails`). [C64_lyapunov_partial] C64 (symmetric `D`): from any start, `1/ρ ‖dual - ys‖² + ρ ‖atom - zs‖²` never increases, whatever solution `zs` and multiplier `ys`; from the second pass on it decreases by at least `ρ` times the squared constraint violation plus the squared movement of `atom_coefs`. Missing: nonsymmetric `D`. [C64_residual_sum_partial] C64 (symmetric `D`): the squared constraint violations and squared movements of `atom_coefs`, summed over all passes after the first, are at most `1/ρ` times the initial `1/ρ ‖dual - ys‖² + ρ ‖atom - zs‖²`, for every number of passes. Missing: nonsymmetric `D`. [C64_convergence_partial] C64 (symmetric `D`): the iteration converges. If the problem has a solution with a Lagrange multiplier then, from any start, the constraint violation `D x + a - z` tends to zero, the movement of `atom_coefs` tends to zero, and `f(loss_coefs) + g(atom_coefs)` tends to the optimal value. Missing: nonsymmetric `D`."
  },
  {
   "property": "C65",
   "status": "partial",
   "theorems": [
    "Verif.Props.C65_blocks",
    "Verif.Props.C65_columns_adjoint_partial",
    "Verif.Props.C65_rows_adjoint_partial",
    "Verif.Props.C65_affine_partial",
    "Verif.Props.C65_repeated_selector_fails",
    "Verif.Props.C65_tensorize",
    "Verif.Props.C65_factored"
   ],
   "note": "The property is false of the code as stated in these cases, proved with witnesses: [C65_repeated_selector_fails] Counterexample inherited from `selector` (C24): with a transform whose selector repeats a position the adjoint identity fails. Proved in part: [C65_columns_adjoint_partial] C65: the adjoint identity of `block_columns`: `⟨L(B), u⟩ = ⟨B, L*(u)⟩` for every matrix `B` and vector `u`. [C65_rows_adjoint_partial] C65: the adjoint identity of `block_rows`. [C65_affine_partial] C65: both block maps are affine: the affine map is the linear map plus the value at zero."
  },
  {
   "property": "C66",
   "status": "partial",
   "theorems": [
    "Verif.Props.C66_iterative_svd",
    "Verif.Props.C66_nuclear_lagrange_prox_partial",
    "Verif.Props.C66_nuclear_bound_prox_partial",
    "Verif.Props.C66_operator_lagrange_prox_partial",
    "Verif.Props.C66_operator_bound_prox_partial",
    "Verif.Props.C66_factored_matrix",
    "Verif.Props.C66_small_matrix_fails",
    "Verif.Props.C66_operator_wide_fails",
    "Verif.Props.C66_zero_matrix_fails",
    "Verif.Props.C66_lipschitz_fails"
   ],
   "note": "The property is false of the code as stated in these cases, proved with witnesses: [C66_small_matrix_fails] Counterexample: with an initial rank above the number of rows or columns every proximal map raises ValueError, for every matrix and every parameter; in particular with the default `initial_rank = 10` for every matrix with fewer than ten rows or columns. [C66_operator_wide_fails] Counterexample: the low rank `operator_norm` cannot be constructed for a matrix with more columns than rows. [C66_zero_matrix_fails] Counterexample: for the zero matrix the proximal maps raise IndexError; the proximal point is the zero matrix. [C66_lipschitz_fails] Counterexample: `nuclear_norm.lagrange_prox` ignores `lipschitz`: for the matrix `[[3]]`, `lagrange = 1`, `lipschitz = 2` it returns `[[2]]`, and the proximal point is `[[5/2]]`. Proved in part: [C66_nuclear_lagrange_prox_partial] C66: for a matrix with at least `initial_rank` rows and columns, whose largest singular value exceeds `1e-12` and each of whose singular values is at most `lagrange`, or above `1e-12` and above `1e-16` times the largest: with `lipschitz = 1` the low rank `nuclear_norm.lagrange_prox` returns the proximal point, and leaves the atom in a state for which the same holds. [C66_nuclear_bound_prox_partial] C66: under the same conditions, each singular value being zero or above `1e-12` and above `1e-16` times the largest, the low rank `nuclear_norm.bound_prox` returns the projection on the ball of the nuclear norm. [C66_operator_lagrange_prox_partial] C66: the low rank `operator_norm.lagrange_prox` returns the proximal point of the operator norm, for every `lipschitz`. [C66_operator_bound_prox_partial] C66: the low rank `operator_norm.bound_prox` returns the projection on the ball of the operator norm."
  },
  {
   "property": "C67",
   "status": "partial",
   "theorems": [
    "Verif.Props.C67_affine_lagrange",
    "Verif.Props.C67_affine_bound",
    "Verif.Props.C67_shift_lagrange",
    "Verif.Props.C67_dual",
    "Verif.Props.C67_double_dual",
    "Verif.Props.C67_smoothed_partial",
    "Verif.Props.C67_constructor_subtracts",
    "Verif.Props.C67_constructor_offset",
    "Verif.Props.C67_constructor_sign_fails",
    "Verif.Props.C67_operator_offset_fails"
   ],
   "note": "The property is false of the code as stated in these cases, proved with witnesses: [C67_constructor_sign_fails] **C67** fails for the constructor: with `D = 1`, `α = 1`, `x = 1` the documented value of the absolute value of `D x + α` is 2, the value returned is 0. [C67_operator_offset_fails] **C67** fails for operators with an offset: given `affine_transform(D, β)` as operator, `cls.linear` drops `β` in `nonsmooth_objective` but keeps it in `smoothed`. With `D = 1`, `β = 1`: at `x = 0` the value is `|0|`, while the smoothed version, which should never exceed it, is positive (it is the smoothed absolute value at `1`). Proved in part: [C67_smoothed_partial] **C67** `smoothed(q)` of such a penalty, with `coef q > 0`, is a smooth function of `x`: the value is `sup_u ⟨D x, u⟩ - h*(u) - q(u)` with `h*` the conjugate of `z ↦ h(z + α) + ...`, the vector returned is its gradient. The transform has no offset of its own and selects no position twice."
  },
  {
   "property": "C68",
   "status": "partial",
   "theorems": [
    "Verif.Props.C68_dual_gradient",
    "Verif.Props.C68_primal",
    "Verif.Props.C68_weak_duality",
    "Verif.Props.C68_optimal",
    "Verif.Props.C68_error_bound",
    "Verif.Props.C68_objective",
    "Verif.Props.C68_stacked_dual",
    "Verif.Props.C68_seminorm_dual",
    "Verif.Props.C68_return_optimum_fails"
   ],
   "note": "The property is false of the code as stated in these cases, proved with witnesses: [C68_return_optimum_fails] **C68** fails for `solve(return_optimum=True)`: the value returned with the solution is the dual objective evaluated at the primal point. For `½x² - 3x + |x|`, solved exactly (`u = 1` minimises the dual objective), the solution `2` is returned with the value `1/2`, while the minimum is `-2` (and that of the dual problem `2`)."
  },
  {
   "property": "C69",
   "status": "partial",
   "theorems": [
    "Verif.Props.C69_smooth_objective",
    "Verif.Props.C69_objective",
    "Verif.Props.C69_proximal_partial",
    "Verif.Props.C69_proximal_identity",
    "Verif.Props.C69_proximal_selector_partial",
    "Verif.Props.C69_seminorm_member",
    "Verif.Props.C69_constructor",
    "Verif.Props.C69_default_penalty",
    "Verif.Props.C69_only_penalties_fails",
    "Verif.Props.C69_quadratic_fails",
    "Verif.Props.C69_selector_transform_fails",
    "Verif.Props.C69_solve",
    "Verif.Props.C69_solve_quadratic_fails"
   ],
   "note": "The property is false of the code as stated in these cases, proved with witnesses: [C69_only_penalties_fails] **C69** fails for containers of penalties only: although the documentation describes the class as combining penalties, the constructor raises IndexError whenever all arguments are nonsmooth. [C69_quadratic_fails] **C69** fails when the container or a smooth member has a quadratic: the dual problem is built from the sum of all quadratics, but the primal point is recovered with the coefficient of `proxq` alone. For `proxq = ½(z - 3)²`, a smooth member with quadratic `½z²` and the penalty `|z|`, with the dual problem solved exactly, `2` is returned and the minimiser is `1`. [C69_selector_transform_fails] **C69** fails for a penalty of a selection followed by a further transform: when the single penalty is composed with `selector(index_obj, shape, T)` the transform `T` is dropped. For the penalty `|2z|` with `T` scaling by `2` and `proxq = ½(z - 3)²`, `2` is returned and the minimiser is `1`. [C69_solve_quadratic_fails] **C69** fails for `solve(quadratic=q)`: the argument has no effect whatsoever. For the objective `½z²`, solved exactly, and `q = ½(z - 2)²`, the point `0` is returned, which minimises the objective without `q` and not the one with it. Proved in part: [C69_proximal_partial] **C69** (partial: containers and smooth members without quadratic terms, see `C69_quadratic_fails`) `proximal` when the dual problem is solved, that is for several penalties, or one penalty composed with an operator. Each penalty `H i` is given by its dual pair. The dual problem built has a smooth part `V` and a penalty `P` whose proximal map the solver receives; if the solver stops at a point whose dual objective `V(-Dᵀ u) + P(u)` exceeds the minimum by `δ`, the vector returned is within `√(2δ/coef)` of the minimiser of `proxq + Σ H i`, and it is that minimiser if the dual problem is solved exactly. [C69_proximal_selector_partial] **C69** (partial: the selector applies no further transform, see `C69_selector_transform_fails`) `proximal` for a single penalty `H` of the entries of the vector at distinct positions `idx`: all quadratics are taken into account."
  },
  {
   "property": "C70",
   "status": "partial",
   "theorems": [
    "Verif.Props.C70_conjugate",
    "Verif.Props.C70_gradient",
    "Verif.Props.C70_constructor",
    "Verif.Props.C70_seminorm",
    "Verif.Props.C70_exception_fails"
   ],
   "note": "The property is false of the code as stated in these cases, proved with witnesses: [C70_exception_fails] **C70** fails at crash points: when the inner minimisation raises (or is interrupted), the quadratic the caller passed keeps the shifted linear term, so that the object, and everything else using that quadratic, stands for another function from then on."
  },
  {
   "property": "C71",
   "status": "partial",
   "theorems": [
    "Verif.Props.C71_smooth_conjugate",
    "Verif.Props.C71_constructor",
    "Verif.Props.C71_double_conjugate",
    "Verif.Props.C71_involution",
    "Verif.Props.C71_own_quadratic_fails",
    "Verif.Props.C71_loss_proximal",
    "Verif.Props.C71_loss_solve",
    "Verif.Props.C71_loss_value_fails"
   ],
   "note": "The property is false of the code as stated in these cases, proved with witnesses: [C71_own_quadratic_fails] **C71** fails when the `smooth_conjugate` object itself has been given a quadratic: then `conjugate` always raises, although the derivation in the source covers both cases. [C71_loss_value_fails] **C71** fails for the value: with `return_optimum=True`, `solve(quadratic)` of a loss returns the objective without the quadratic argument (`solve` of an atom includes it), so the value is off by exactly `quadratic(coefs)`; and the value reported by `smooth_conjugate(loss)`, whose query is such an argument, is wrong: for the loss 0 with quadratic `z²/2` and an exact solver it is `-x²/2` instead of `x²/2`."
  },
  {
   "property": "C72",
   "status": "partial",
   "theorems": [
    "Verif.Props.C72_clipped",
    "Verif.Props.C72_gradient_partial",
    "Verif.Props.C72_constructor",
    "Verif.Props.C72_gradient_fails",
    "Verif.Props.C72_convex_partial",
    "Verif.Props.C72_convex_fails",
    "Verif.Props.C72_offset_fails",
    "Verif.Props.C72_mean",
    "Verif.Props.C72_hessian_partial",
    "Verif.Props.C72_hessian_fails",
    "Verif.Props.C72_copy_subsample",
    "Verif.Props.C72_caller_weights"
   ],
   "note": "The property is false of the code as stated in these cases, proved with witnesses: [C72_gradient_fails] **C72** fails below the clipping bound: for one success in one trial, at every linear predictor below `-B` the value is locally constant but the returned gradient is not zero. [C72_convex_fails] **C72** convexity fails on all of space: for one success in one trial the value is flat below `-B` and strictly decreasing above. [C72_offset_fails] **C72** fails with an offset: the answers of both classes do not depend on the offset at all, so with offset 1, one success in one trial, the value at 0 is not the negative log-likelihood at `0 - 1`. [C72_hessian_fails] **C72** `hessian` is not the Hessian of the loss: for cloglog with no success in one trial the loss is `exp x`, whose second derivative at 0 is 1, but `hessian` returns `1 / (e - 1)`. Proved in part: [C72_gradient_partial] **C72** While all linear predictors are at most `B` in absolute value (`B` is 20 for probit, 5 for cloglog), 'func' is the textbook negative log-likelihood, and the 'grad' answer is its gradient; strictly inside, 'grad' is the gradient of the function 'func' returns. Holds for all successes, trials, coefficients and weights. Missing: outside `[-B, B]` it is false (`C72_gradient_fails`), and the offset of the loss is ignored (`C72_offset_fails`). [C72_convex_partial] **C72** For every loss the constructors accept and nonnegative weights, the textbook negative log-likelihood is convex, so the value returned by 'func' is convex along every segment between points with linear predictors at most `B` in absolute value. Missing: convexity on all of space is false (`C72_convex_fails`). [C72_hessian_partial] **C72** The vector returned by `hessian` at `x`, all linear predictors strictly inside `(-B, B)`, is the diagonal of the *expected* Hessian: the derivative of the gradient when every number of successes is replaced by its mean `mᵢ π(xᵢ)` at `x`. It is nonnegative for weights, coefficient and trials that are. Missing: it is not the Hessian of the loss itself (`C72_hessian_fails`)."
  },
  {
   "property": "C73",
   "status": "partial",
   "theorems": [
    "Verif.Props.C73_deviance_nonneg",
    "Verif.Props.C73_logistic_partial",
    "Verif.Props.C73_links_partial",
    "Verif.Props.C73_nonneg",
    "Verif.Props.C73_weights_fails",
    "Verif.Props.C73_poisson_fails"
   ],
   "note": "The property is false of the code as stated in these cases, proved with witnesses: [C73_weights_fails] **C73** fails with case weights: the constant of the saturated fit ignores them, so with one success in two trials and case weight 0 the objective is `-2 log 2 < 0` at every point. [C73_poisson_fails] **C73** fails for poisson_loglike: its constant is not the saturated log-likelihood. For a single count 2 the objective at the saturated fit `x = log 2` is `2 - 3 log 2`, negative. Proved in part: [C73_logistic_partial] **C73** logistic_loglike without case weights, positive trials, linear predictors at most 100: the objective is the coefficient times the sum of the half deviances of the fitted probabilities, plus the caller's quadratic. Missing: linear predictors above 100 (the code replaces `log(1 + exp x)` by `x`), and case weights, for which it is false (`C73_weights_fails`). [C73_links_partial] **C73** probit_loglike and cloglog_loglike without case weights, positive trials, linear predictors at most `B` in absolute value (20, 5): the same, with the inverse link of the class. Missing: the clipped region, the offset (ignored by the code) and case weights, for which it is false (`C73_weights_fails`)."
  },
  {
   "property": "C74",
   "status": "proved",
   "theorems": [
    "Verif.Props.C74_suboptimality",
    "Verif.Props.C74_optimal",
    "Verif.Props.C74_complete",
    "Verif.Props.C74_strong_rule",
    "Verif.Props.C74_strong_set",
    "Verif.Props.C74_path_strong_set",
    "Verif.Props.C74_path_check_on",
    "Verif.Props.C74_check_active",
    "Verif.Props.C74_exact",
    "Verif.Props.C74_subproblem"
   ],
   "note": ""
  },
  {
   "property": "C75",
   "status": "partial",
   "theorems": [
    "Verif.Props.C75_inactive",
    "Verif.Props.C75_zero_partial",
    "Verif.Props.C75_complete",
    "Verif.Props.C75_active",
    "Verif.Props.C75_zero_complete_partial",
    "Verif.Props.C75_strong_set",
    "Verif.Props.C75_strong_rule",
    "Verif.Props.C75_penalty",
    "Verif.Props.C75_subproblem",
    "Verif.Props.C75_ridge_fails",
    "Verif.Props.C75_seminorm_fails",
    "Verif.Props.C75_subsample_fails",
    "Verif.Props.C75_unpenalized_fails",
    "Verif.Props.C75_unpenalized_check_fails",
    "Verif.Props.C75_active_fails"
   ],
   "note": "The property is false of the code as stated in these cases, proved with witnesses: [C75_ridge_fails] **C75** (negation) The ridge term of a penalised group lacks the lagrange parameter that the lasso and group lasso paths put in front of it (`enetSmooth`): one feature, `alpha = 1/2`, `lagrange = 2`, value 1. [C75_seminorm_fails] **C75** (negation) `path.penalty.seminorm` is not the path's penalty: the constructor rescales `lasso_weights` but not the inner weighted l1 norm. One feature, unit weights, `l1_alpha = 1/2`, at 1: `3/2` instead of 1. [C75_subsample_fails] **C75** (negation) `path.subsample` does not keep the penalty: the constructor rescales the already scaled weights. For all data: the subsampled path has the weights `l1_alpha² a` and `(1 - l1_alpha)² w`. [C75_unpenalized_fails] **C75** (negation) `unpenalized` flags the wrong groups: never a group without any penalty, and always a group whose weight is 0 but all of whose features have nonzero lasso weights. [C75_unpenalized_check_fails] **C75** (negation) With a group that is not penalised at all, `check_KKT` raises an exception, whatever its arguments. [C75_active_fails] **C75** (negation) The check accepts points that are far from optimal: in an active group it never asks whether the gradient is too large. One feature, `lasso_weights = 0.95` and group weight `0.05` (unit weights and the default `l1_alpha`), `lagrange = 1`, loss `(u - (10^6 + 1000))²/2`, whose gradient at `b = 10^6` is `-1000`: the check reports no failure, while the objective at `b` exceeds that at `10^6 + 999` by more than `498000`. Proved in part: [C75_zero_partial] **C75** (partial: only for the zero vector; `C75_active_fails` shows what happens in active groups) If the zero vector passes `check_KKT`, it is optimal, for a convex loss, up to the tolerances: its loss is at most that of any `u` plus the penalty of `u` at the lagrange parameter `acceptedGauge` (`lam` up to the tolerances). [C75_zero_complete_partial] **C75** (partial: only for the zero vector) Conversely, if every group is penalised and the zero vector minimises the penalised problem, it passes the check."
  },
  {
   "property": "C76",
   "status": "partial",
   "theorems": [
    "Verif.Props.C76_inactive",
    "Verif.Props.C76_zero_partial",
    "Verif.Props.C76_complete",
    "Verif.Props.C76_active",
    "Verif.Props.C76_strong_rule",
    "Verif.Props.C76_subsample",
    "Verif.Props.C76_l1_alpha_fails"
   ],
   "note": "The property is false of the code as stated in these cases, proved with witnesses: [C76_l1_alpha_fails] **C76** (negation) `l1_alpha` has no effect on the penalty of the path (it is documented to mix the two penalties), but it does on that of its subsamples. Proved in part: [C76_zero_partial] **C76** (partial: only for the zero matrix; active rows are checked by the code of `C75_active_fails`) If the zero matrix passes `check_KKT` and `grad` is a subgradient of the loss at zero, the loss at zero is at most that at any `u` plus the penalty of `u` at the lagrange parameter `acceptedGauge` (`lam` up to the tolerances)."
  },
  {
   "property": "C77",
   "status": "partial",
   "theorems": [
    "Verif.Props.C77_stacked_partial",
    "Verif.Props.C77_weights_ignored",
    "Verif.Props.C77_weights_fails",
    "Verif.Props.C77_subsample_fails",
    "Verif.Props.C77_caller",
    "Verif.Props.C77_caller_fails",
    "Verif.Props.C77_gaussian_partial",
    "Verif.Props.C77_coef_fails",
    "Verif.Props.C77_factory_partial",
    "Verif.Props.C77_factory_fails"
   ],
   "note": "The property is false of the code as stated in these cases, proved with witnesses: [C77_weights_fails] **C77** fails for case weights: giving all cases weight zero, on construction and in the call, leaves the value `9` of two squared residuals `3` (halved) as it is. [C77_subsample_fails] **C77** fails for `subsample`: for any set of cases it returns a loss whose attribute `case_weights` is zero on the dropped cases, and which has the same values and gradients as before. [C77_caller_fails] **C77** fails for purity: an evaluation changes the caller's weights. [C77_coef_fails] **C77** fails for the `coef` argument of `stacked_loglike.huber` and `.huber_svm`: it is ignored. [C77_factory_fails] **C77** fails for the other seven: each raises on every sequence of responses. Proved in part: [C77_stacked_partial] **C77** an accepted stack, after any history of evaluations and whatever weights it was given: the value is `coef` times the sum of the stacked losses on the consecutive blocks of the argument (minus the offset); the block of the returned gradient is `coef` times the gradient of that loss; it is the gradient of the value wherever the losses' gradients are; the value is convex if the losses are. Missing: the case weights, which have no effect (`C77_weights_fails`). [C77_gaussian_partial] **C77** `stacked_loglike.gaussian` is accepted for every nonempty sequence of responses, nonnegative `coef` and nonnegative weights, and its value is `coef` times half the sum of the squared residuals over all responses. [C77_factory_partial] **C77** of the eight `stacked_*` factories, `stacked_gaussian` builds its loss for every nonempty sequence of responses."
  },
  {
   "property": "C78",
   "status": "partial",
   "theorems": [
    "Verif.Props.C78_rows",
    "Verif.Props.C78_empty",
    "Verif.Props.C78_optimal_on",
    "Verif.Props.C78_optimal",
    "Verif.Props.C78_lasso",
    "Verif.Props.C78_deviance",
    "Verif.Props.C78_devratio_partial",
    "Verif.Props.C78_devratio_fails",
    "Verif.Props.C78_zero_fails"
   ],
   "note": "The property is false of the code as stated in these cases, proved with witnesses: [C78_devratio_fails] **C78** fails for losses that can be negative: for one poisson count 3 and the parameters 2, 0 every exact solver gives the devratios 0 and `1 - (3 - 3 log 3) > 1`. [C78_zero_fails] **C78** fails for a perfect fit: if every solution has loss 0 every devratio is the nan of `0/0`. Proved in part: [C78_devratio_partial] **C78** devratio: for an exact solver, a nonnegative loss, a ridge term proportional to the lagrange parameter and a strictly decreasing sequence of nonnegative parameters whose first solution has positive loss, the devratios are numbers, the first is 0, they do not decrease along the path, and they stay between 0 and 1. Missing: losses that can be negative (`C78_devratio_fails`) and a first solution with loss 0 (`C78_zero_fails`)."
  },
  {
   "property": "C79",
   "status": "partial",
   "theorems": [
    "Verif.Props.C79_constructor_partial",
    "Verif.Props.C79_fromarray_partial",
    "Verif.Props.C79_diagonal",
    "Verif.Props.C79_squared_transform_partial",
    "Verif.Props.C79_keywords",
    "Verif.Props.C79_affine_partial",
    "Verif.Props.C79_linear_partial",
    "Verif.Props.C79_shift_partial",
    "Verif.Props.C79_quadratic_fails",
    "Verif.Props.C79_conjugate_partial",
    "Verif.Props.C79_conjugate_fails",
    "Verif.Props.C79_dual",
    "Verif.Props.C79_cholesky"
   ],
   "note": "The property is false of the code as stated in these cases, proved with witnesses: [C79_quadratic_fails] **C79** fails for the argument `quadratic` of `affine` and `linear`: the object built does not depend on it, because the quadratic is given to the inner atom, whose `smooth_objective` ignores it. With `q = ½‖·‖²` the objective at 1 of `linear([[1]], quadratic=q)` is 1/2 where `½x² + q(x)` is 1. [C79_conjugate_fails] **C79** fails for a loss with a `Q`: `conjugate` raises for every diagonal, matrix or transform `Q` (also positive definite ones, for which the conjugate exists), with and without `factor`. Proved in part: [C79_constructor_partial] **C79** `quadratic_loss(shape, Q, coef=c, offset=α, quadratic=q)` raises ValueError exactly for a negative `c`; otherwise its value is `c/2 (x-α)'Q(x-α)` (`c/2 ‖x-α‖²` without `Q`), its gradient is the gradient of that, and `objective` adds `q`. Missing: a `Q` that is not symmetric (`C28_quadratic_fails`) and transforms that repeat a position. [C79_fromarray_partial] **C79** `quadratic_loss.fromarray(Q, offset=α)` is `½ (x-α)'Q(x-α)` for every symmetric matrix `Q`. [C79_squared_transform_partial] **C79** `quadratic_loss.squared_transform(T, offset=α)` is `½ ‖D(x-α)‖²`, `D` the linear part of `T`, with its true gradient, and it is convex, for every transform without a repeated position in a selector. [C79_affine_partial] **C79** `quadratic_loss.affine(X, b, coef=c, Q=Q)` is `c/2 r'Qr` with `r = Xx + b` (the offset is added), for a matrix or a transform `X`, and its gradient is the gradient of that. It raises ValueError exactly for an unacceptable keyword or a negative `c`. Missing: a `quadratic` argument, which is lost (`C79_quadratic_fails`), and transforms that repeat a position. [C79_linear_partial] **C79** `quadratic_loss.linear(X, coef=c, offset=α, Q=Q)` is `c/2 r'Qr` with `r = Xx - α` (the offset is subtracted), and its gradient is the gradient of that. Missing: as for `affine`. [C79_shift_partial] **C79** `quadratic_loss.shift(α, coef=c, quadratic=q, Q=Q)` is `c/2 (x-α)'Q(x-α)` and keeps `q`. [C79_conjugate_partial] **C79** `quadratic_loss(shape, coef=c, offset=α, quadratic=q).conjugate`, with `c ≥ 0` and positive total quadratic coefficient, is the Fenchel conjugate of `c/2 ‖x-α‖² + q(x)`, with the maximiser as gradient. With total coefficient 0 it raises ValueError. Missing: a float other than 0 as center of `q` in dimension at least 2 (`C14_collapsed_fails`), and a `Q` (`C79_conjugate_fails`)."
  },
  {
   "property": "C80",
   "status": "partial",
   "theorems": [
    "Verif.Props.C80_objective",
    "Verif.Props.C80_inner_partial",
    "Verif.Props.C80_descent_partial",
    "Verif.Props.C80_stationary_partial",
    "Verif.Props.C80_certificate_partial",
    "Verif.Props.C80_results",
    "Verif.Props.C80_monotone",
    "Verif.Props.C80_returned",
    "Verif.Props.C80_returned_not_better",
    "Verif.Props.C80_loss_quadratic_fails",
    "Verif.Props.C80_return_fails"
   ],
   "note": "The property is false of the code as stated in these cases, proved with witnesses: [C80_loss_quadratic_fails] **C80** (failure) the quadratic of the loss counts in the objective but not in the inner problem: for `½(x-1)²` with the loss quadratic `½x²` the point 1 is a fixed point of the exact iteration and does not minimise the total objective. [C80_return_fails] **C80** (failure) the returned point is the last inner solution, not the point of the line search: minimising `½x²` from 1 with initial Hessian `1/20` and an exact line search, one iteration reaches the minimiser 0 and records the value 0, and `-9` is returned, whose objective `81/2` exceeds the value `1/2` at the start. Proved in part: [C80_inner_partial] **C80** (partial) the problem handed to the inner solver at the point `x` is, up to a constant, the documented second order model `G·(u-x) + ½ (u-x)'B(u-x) + P(u) + quadratic(u)`. Missing: the quadratic of the loss (`C80_loss_quadratic_fails`). [C80_descent_partial] **C80** (partial) with an exact inner solver, a convex penalty and no quadratic in the loss, the search direction is a descent direction: for all small steps the total objective decreases by at least half the step times `d'Bd`, which is positive unless the inner solution is the current point. Missing: a loss with its own quadratic (`C80_loss_quadratic_fails`). [C80_stationary_partial] **C80** (partial) the inner solution is the current point exactly when the current point minimises the total objective (convex loss and penalty). Missing: a loss with its own quadratic. [C80_certificate_partial] **C80** (partial) certificate: the value at the inner solution `u` found at the point `x` exceeds the value at any feasible `z` by at most `(L + M) ‖u - x‖ ‖z - u‖`, when the gradient is `L`-Lipschitz between `x` and `u` and `‖B w‖ ≤ M ‖w‖`; so a small last step certifies the returned point. Missing: a loss with its own quadratic."
  },
  {
   "property": "C81",
   "status": "partial",
   "theorems": [
    "Verif.Props.C81_check_complete",
    "Verif.Props.C81_suboptimal_partial",
    "Verif.Props.C81_unpenalized_fails",
    "Verif.Props.C81_group_direction_fails",
    "Verif.Props.C81_strong_rule_partial",
    "Verif.Props.C81_strong_complete",
    "Verif.Props.C81_strong_group_fails",
    "Verif.Props.C81_strong_keeps_unpenalized",
    "Verif.Props.C81_group_strong_rule",
    "Verif.Props.C81_lagrange_max_partial",
    "Verif.Props.C81_lagrange_max_fails"
   ],
   "note": "The property is false of the code as stated in these cases, proved with witnesses: [C81_unpenalized_fails] **C81** Unpenalised coordinates are never checked: for a problem with one unpenalised coordinate every vector is accepted, however far its objective is from the minimum. [C81_group_direction_fails] **C81** The direction of the gradient on an active group is never checked: for `f = ½x²` and one group, `x = 1` is accepted at `lagrange = 1` although the gradient there points away from the subgradient; the minimum is at zero. [C81_strong_group_fails] **C81** With a group of weight two the rule is not safe, even when the gradient moves with the assumed slope: `f = ½(x - y)²` with `y = 1.9`, one group of one coordinate and weight two. At `lagrange = 1` the solution is zero with gradient `-1.9`; going to `lagrange = 0.9` the group is discarded, `1.9 < 2·2·0.9 - 1`, although the solution there is `0.1`. [C81_lagrange_max_fails] **C81** With a positive part coordinate the sign is wrong and the value is not a threshold: for `f = ½(x - 1)²` the gradient of the null solution is `-1`, the value is zero, but at `lagrange = 1/2` the solution is not zero. Proved in part: [C81_suboptimal_partial] **C81** What an accepted vector satisfies: if no coordinate is reported as failing, and in addition the gradient vanishes at the unpenalised coordinates and is opposite to the solution on every active group, then the vector minimises the penalised objective up to the stated slack. (Partial: the two additional conditions are not checked by the program, see `C81_unpenalized_fails`, `C81_group_direction_fails`.) [C81_strong_rule_partial] **C81** The screening rule is safe when the gradient moves with at most the assumed slope and no group weighs more than one: every coordinate it discards is zero in every solution at the new lagrange parameter. (Partial: for groups of larger weight see `C81_strong_group_fails`.) [C81_lagrange_max_partial] **C81** Without positive part coordinates and with positive group weights the value of `conjugate.seminorm` at the gradient of the null solution (the solution with all penalised coordinates zero) is the exact threshold: the null solution solves the penalised problem at a lagrange parameter if and only if that parameter is at least this value. (Partial: for positive part coordinates see `C81_lagrange_max_fails`.)"
  },
  {
   "property": "C82",
   "status": "partial",
   "theorems": [
    "Verif.Props.C82_lagrange_max_first",
    "Verif.Props.C82_null_first",
    "Verif.Props.C82_null_first_fails",
    "Verif.Props.C82_enet_fails",
    "Verif.Props.C82_one_per_lagrange",
    "Verif.Props.C82_bounded_work",
    "Verif.Props.C82_accepted_partial",
    "Verif.Props.C82_ever_active",
    "Verif.Props.C82_failing_kept",
    "Verif.Props.C82_exact_partial",
    "Verif.Props.C82_enet_subproblem_fails",
    "Verif.Props.C82_beta_fails",
    "Verif.Props.C82_beta_first",
    "Verif.Props.C82_df_fails"
   ],
   "note": "The property is false of the code as stated in these cases, proved with witnesses: [C82_null_first_fails] **C82** The value of `lagrange_max` depends on which property is read first: an unpenalised and an l1 coefficient with equal columns and response 3. The null solution fits exactly, so the right value is 0; reading `null_solution` first gives 3. [C82_enet_fails] **C82** Reading `elastic_net` changes it: after `k` reads at lagrange parameter `lam` the coefficients carry the factor `lam ^ k` instead of `lam`, so two calls of `grad` at the same point differ (here `lam = 2`). [C82_enet_subproblem_fails] **C82** The elastic net is part of the optimality check but not of the subproblems: for one l1 coefficient, loss `½(x - 3)²`, elastic net `½x²` and `lagrange = 1`, an exact subproblem solver never produces an accepted solution; the path ends with the warning and appends the solution without elastic net. [C82_beta_fails] **C82** The rows of `beta` after the first are on the scale of the normalised design: a nonzero coefficient of a column whose scaling is not one is wrong. The run above has such an entry. [C82_df_fails] **C82** `df` is the number of columns for every solution after the first, whatever the solution. Proved in part: [C82_accepted_partial] **C82** Every solution appended without the warning passes the optimality check on all coefficients at its lagrange parameter, with the gradient of the loss at that solution. (Partial: without elastic net, which the program rescales at every read, see `C82_enet_fails`.) [C82_exact_partial] **C82** With an exact subproblem solver and a convex loss, a solution appended without the warning is optimal up to one hundredth of the penalty of the competitor: no side condition on unpenalised coefficients or group directions is needed, because the subproblem contains them. (Partial: without elastic net; the weights of a group do not depend on the candidate set, as for explicitly given weights.)"
  },
  {
   "property": "C83",
   "status": "partial",
   "theorems": [
    "Verif.Props.C83_deviance_partial",
    "Verif.Props.C83_mean_deviance_partial",
    "Verif.Props.C83_mean_deviance_fails",
    "Verif.Props.C83_fit_score_partial",
    "Verif.Props.C83_fit_offset_fails",
    "Verif.Props.C83_R2_null_partial",
    "Verif.Props.C83_cloglog_null_fails",
    "Verif.Props.C83_R2_weights_fails",
    "Verif.Props.C83_R2_trials_fails",
    "Verif.Props.C83_labels_partial",
    "Verif.Props.C83_cloglog_label_fails",
    "Verif.Props.C83_multinomial_label",
    "Verif.Props.C83_huber_deviance",
    "Verif.Props.C83_huber_fit_score",
    "Verif.Props.C83_huber_null_fails",
    "Verif.Props.C83_cox_deviance",
    "Verif.Props.C83_cox_unweighted",
    "Verif.Props.C83_cox_R2_fails"
   ],
   "note": "The property is false of the code as stated in these cases, proved with witnesses: [C83_mean_deviance_fails] **C83** fails for complementary log-log regression: `mean_deviance` is not divided by the number of observations, for every admissible response. [C83_fit_offset_fails] **C83** fails for probit and complementary log-log regression with an offset: `fit` minimises a loss that does not depend on the offset column, while `score` subtracts it. [C83_cloglog_null_fails] **C83** fails for complementary log-log regression: the null predictor is a Gumbel quantile, which does not give the mean response as success probability; for one success and one failure the constant model with probability 1/2 has a positive `R2`. [C83_R2_weights_fails] **C83** fails with case weights: the null model ignores them, so constant predictors can have a positive `R2`. Logistic regression, one success of weight 3 and one failure of weight 1, constant probability 3/4. [C83_R2_trials_fails] **C83** fails for responses with trials: `R2` and `accuracy` raise for every two column response (three observations or more). [C83_cloglog_label_fails] **C83** fails for the complementary log-log classifier: at linear predictor 0 the predicted probability is `1 - 1/e`, more than one half, but the label is `False`. [C83_huber_null_fails] **C83** fails for `R2` of Huber regression: the null model predicts the mean response, which is not the best constant for the Huber loss. Responses 0, 0, 0, 4 and smoothing parameter 1: the constant 0 has `R2 = 1/8`. [C83_cox_R2_fails] **C83** fails for `R2` of Cox regression: predictions without any information (all equal) score `-1` instead of 0, because the deviance of the null model is not doubled, for every data set whose null deviance is not 0. Proved in part: [C83_deviance_partial] **C83** The `deviance` score of the logistic, probit and complementary log-log regressions is minus twice the weighted binomial negative log-likelihood of the predictions: the response columns are successes and trials, the weights are case weight times sample weight, and the offset column is subtracted from `X.dot(coefs)`. Missing: linear predictors beyond the bound at which the losses clip (100, 20, 5). [C83_mean_deviance_partial] **C83** `mean_deviance` of logistic and probit regression is the deviance score over the number of observations. Missing: complementary log-log regression, where it is false (`C83_mean_deviance_fails`). [C83_fit_score_partial] **C83** On the training data, at any coefficients (no bound on the linear predictors), the deviance score is `-2 / coef` times the loss that `fit` minimises: fit and score read the same columns and weights. For logistic regression this holds with an offset column. Missing: probit and complementary log-log regression with an offset (`C83_fit_offset_fails`). [C83_R2_null_partial] **C83** `R2` of logistic and probit regression without weights or offset, for a binary response that is not constant: the null model of the formula has the mean response as success probability, its own score is 0, and every constant predictor scores at most 0: the null model is the best constant. The null predictor and the constants are within the bound at which the losses clip. Missing: complementary log-log regression (`C83_cloglog_null_fails`), case weights (`C83_R2_weights_fails`), trials (`C83_R2_trials_fails`). [C83_labels_partial] **C83** `predict_proba` of the logistic and probit classifiers is a probability, and `predict` is `True` exactly when it exceeds one half. For complementary log-log it is the model probability. Missing: labels of the complementary log-log classifier (`C83_cloglog_label_fails`)."
  },
  {
   "property": "C84",
   "status": "partial",
   "theorems": [
    "Verif.Props.C84_fit_objective",
    "Verif.Props.C84_fit_returns",
    "Verif.Props.C84_null",
    "Verif.Props.C84_unpenalized_fails",
    "Verif.Props.C84_enet_quadratic_fails",
    "Verif.Props.C84_lasso_null",
    "Verif.Props.C84_enet_null_fails"
   ],
   "note": "The property is false of the code as stated in these cases, proved with witnesses: [C84_unpenalized_fails] **C84 fails for unpenalised coefficients**: with `unpenalized=True`, `fit` raises `ValueError('objective is NaN')` for every loss, every data set, every `enet_alpha` and every penalty - the atom with `lagrange=np.inf` is evaluated at zero, and `np.inf * 0` is nan. [C84_enet_quadratic_fails] **C84 fails for an atom with a quadratic**: with `enet_alpha ≠ 0` the quadratic of the atom returned by `atom_constructor` is replaced by the ridge term, so `fit` gives the same result whatever that quadratic is. [C84_enet_null_fails] **C84 fails for the elastic net at the dual norm of the score**: the lasso at `lagrange = max |score|` gives the null model, the elastic net at the same parameter does not. Loss `(β - 4)² / 2`, score at zero `-4`, `lagrange = 4`: with `enet_alpha = 0` the fit is zero, with `enet_alpha = 1/2` zero is not a minimiser of the objective of `fit`."
  },
  {
   "property": "C85",
   "status": "partial",
   "theorems": [
    "Verif.Props.C85_values",
    "Verif.Props.C85_certificate",
    "Verif.Props.C85_certificate_bound",
    "Verif.Props.C85_positive_part_fails",
    "Verif.Props.C85_zero_fails",
    "Verif.Props.C85_cone",
    "Verif.Props.C85_cone_certificate_fails"
   ],
   "note": "The property is false of the code as stated in these cases, proved with witnesses: [C85_positive_part_fails] **C85** fails: for `positive_part` the check is no certificate. The dual seminorm is evaluated without its feasibility check, so at the center `-1` the wrong answer `0` is accepted with two equal values, although the minimiser is `-1`. [C85_zero_fails] **C85** fails: with the parameter 0 the check divides by zero, for every class, mode and center, although the proximal map is correct. [C85_cone_certificate_fails] **C85** fails: for cones the two equal values do not verify the projection. A `cone_prox` that always returns 0, or that always returns its argument, passes the check at every center; at the center 1 the first is wrong for the nonnegative orthant, at the center -1 the second is."
  },
  {
   "property": "C86",
   "status": "partial",
   "theorems": [
    "Verif.Props.C86_loss",
    "Verif.Props.C86_rejects",
    "Verif.Props.C86_agrees_with_glm",
    "Verif.Props.C86_agrees_with_glm_fails",
    "Verif.Props.C86_coef_offset_fails",
    "Verif.Props.C86_single_label_fails"
   ],
   "note": "The property is false of the code as stated in these cases, proved with witnesses: [C86_agrees_with_glm_fails] **C86** fails for other smoothing parameters: the two classes disagree for every `eps ≠ 1`, one case of each label. [C86_coef_offset_fails] **C86** fails for the arguments `coef` and `offset`: the function does not depend on them (nor on `quadratic`, which is added elsewhere), so with `coef = 2` the value is not twice the value for `coef = 1`. [C86_single_label_fails] **C86** fails for a sample with a single label: it is always coded `+1`. With labels all 0 (the lower of the usual labels 0, 1) the loss decreases in the direction of the design: at `β = 1`, `X = 1` it is 0, at `β = -1` it is positive."
  },
  {
   "property": "C87",
   "status": "partial",
   "theorems": [
    "Verif.Props.C87_svm_deviance_partial",
    "Verif.Props.C87_svm_fit_score",
    "Verif.Props.C87_svm_deviance_fails",
    "Verif.Props.C87_svm_R2_fails",
    "Verif.Props.C87_multinomial_deviance_partial",
    "Verif.Props.C87_multinomial_fit_score_partial",
    "Verif.Props.C87_multinomial_weights_fails",
    "Verif.Props.C87_multinomial_R2_fails",
    "Verif.Props.C87_multinomial_proba_partial",
    "Verif.Props.C87_multinomial_proba_fails"
   ],
   "note": "The property is false of the code as stated in these cases, proved with witnesses: [C87_svm_deviance_fails] **C87** fails for every other smoothing parameter: one success predicted with margin `1 - 2 eps` scores `-(2 - eps/2)`, the smoothed hinge loss is `3/2 eps`. [C87_svm_R2_fails] **C87** fails for `R2` of the Huber SVM: the null predictor is the mean of the 0/1 response, never negative, so when failures are in the majority a constant predictor has a positive `R2`. Three failures, one success, smoothing parameter 1. [C87_multinomial_weights_fails] **C87** fails with case weights: `fit` minimises the weighted loss, but the score does not depend on the weights, for any data; so for the weights 2 of a single observation the score is not `-2/coef` times the fitted loss. [C87_multinomial_R2_fails] **C87** fails for `R2` of multinomial regression: it raises for every response with at least two observations and two classes, as many observations as classes excepted. [C87_multinomial_proba_fails] **C87** fails for several observations: `predict_proba` raises unless their number is the number of classes (at least two of each), and then it divides by the sums of the wrong rows, so that rows need not add to one. Proved in part: [C87_svm_deviance_partial] **C87** Huber SVM with smoothing parameter 1: the `deviance` score is minus the weighted sum of smoothed hinge losses of the predictions at the margins `(2 yᵢ - 1) ŷᵢ`; `mean_deviance` divides it by the number of observations. Missing: any other smoothing parameter (`C87_svm_deviance_fails`). [C87_multinomial_deviance_partial] **C87** multinomial regression without weights: where no prediction exceeds 50 in absolute value the `deviance` score is minus twice the multinomial negative log likelihood of the counts, and `mean_deviance` divides it by the number of observations. Missing: weights (`C87_multinomial_weights_fails`) and larger predictions, which the loss clips. [C87_multinomial_fit_score_partial] **C87** multinomial regression without weights: on the training data the `deviance` score is `-2/coef` times the loss `fit` minimises (no prediction beyond 50). [C87_multinomial_proba_partial] **C87** for a single observation with at least two classes, `predict_proba` of the multinomial classifier returns the softmax probabilities, which are positive and add to one. Missing: several observations (`C87_multinomial_proba_fails`)."
  },
  {
   "property": "C88",
   "status": "proved",
   "theorems": [
    "Verif.Props.C88_objective",
    "Verif.Props.C88_certificate",
    "Verif.Props.C88_returns",
    "Verif.Props.C88_rate",
    "Verif.Props.C88_keeps_solution",
    "Verif.Props.C88_minimiser_exists"
   ],
   "note": ""
  },
  {
   "property": "C89",
   "status": "partial",
   "theorems": [
    "Verif.Props.C89_value",
    "Verif.Props.C89_invariant",
    "Verif.Props.C89_scaling_ignored",
    "Verif.Props.C89_sigma_fails",
    "Verif.Props.C89_constant_fails",
    "Verif.Props.C89_transform_changed_fails",
    "Verif.Props.C89_form_matrix",
    "Verif.Props.C89_tuning",
    "Verif.Props.C89_tuning_sigma_fails"
   ],
   "note": "The property is false of the code as stated in these cases, proved with witnesses: [C89_sigma_fails] **C89** The noise level cannot be given: for every transform, signal and `sigma` the call ends in an exception. [C89_constant_fails] **C89** A constant signal gives nan, not a statistic. [C89_transform_changed_fails] **C89** Reading the statistic changes the transform: whatever the arguments, afterwards the transform has the scaling `sqrt(sizes)`, so its `linear_map` multiplies the mean over interval `[i, j)` by `sqrt(j - i)`, no matter which scaling it had before. [C89_tuning_sigma_fails] **C89** The argument `sigma` of `choose_tuning_parameter`, documented as passed on to the statistic, has no effect."
  },
  {
   "property": "C90",
   "status": "partial",
   "theorems": [
    "Verif.Props.C90_objective",
    "Verif.Props.C90_certificate",
    "Verif.Props.C90_returns",
    "Verif.Props.C90_rate",
    "Verif.Props.C90_keeps_solution",
    "Verif.Props.C90_seminorm_lagrange",
    "Verif.Props.C90_seminorm_bound",
    "Verif.Props.C90_cone",
    "Verif.Props.C90_seminorms",
    "Verif.Props.C90_group_lasso",
    "Verif.Props.C90_group_lasso_bound",
    "Verif.Props.C90_sparse_group_lasso",
    "Verif.Props.C90_weighted_l1_partial",
    "Verif.Props.C90_weighted_l1_bound",
    "Verif.Props.C90_slope",
    "Verif.Props.C90_nonnegative",
    "Verif.Props.C90_nonpositive",
    "Verif.Props.C90_zero",
    "Verif.Props.C90_zero_constraint",
    "Verif.Props.C90_projection",
    "Verif.Props.C90_projection_complement",
    "Verif.Props.C90_simplex",
    "Verif.Props.C90_maximum",
    "Verif.Props.C90_mixed_lasso_partial",
    "Verif.Props.C90_mixed_lasso_offset_fails",
    "Verif.Props.C90_separable"
   ],
   "note": "The property is false of the code as stated in these cases, proved with witnesses: [C90_mixed_lasso_offset_fails] **C90** Counterexample: `mixed_lasso` with an offset. For one l1 coordinate, multiplier 1 and offset 1 the value reported at `x = 1` is `1`, although the penalty of `x - offset = 0` is `0`. Proved in part: [C90_weighted_l1_partial] **C90** (partial) The weighted `l1norm` with a Lagrange multiplier stands for `lam * Σ_i w_i |z_i|` of `z = x - offset`, with `z_i = 0` wherever the weight is infinite, plus its quadratic. Missing: a multiplier 0 together with an infinite weight, where the proximal map is nan (C23). [C90_mixed_lasso_partial] **C90** (partial) `mixed_lasso` without an offset and with a positive multiplier stands for `lam * (Σ_l1 |z_i| + Σ_positive part z_i + Σ_g w_g ‖z[g]‖₂)` on the vectors whose positive part and nonnegative coordinates are not negative, plus its quadratic. Missing: an offset, which `nonsmooth_objective` applies twice (`C90_mixed_lasso_offset_fails`), and the multiplier 0, where the proximal map may be nan (C56)."
  },
  {
   "property": "C91",
   "status": "partial",
   "theorems": [
    "Verif.Props.C91_conjugate_sum",
    "Verif.Props.C91_conjugate_partial",
    "Verif.Props.C91_involution",
    "Verif.Props.C91_proximal",
    "Verif.Props.C91_proximal_total",
    "Verif.Props.C91_shapes_in_problem",
    "Verif.Props.C91_shapes_fails",
    "Verif.Props.C91_moreau_generic",
    "Verif.Props.C91_moreau",
    "Verif.Props.C91_conjugate_fails",
    "Verif.Props.C91_smoothed_fails",
    "Verif.Props.C91_quadratic_fails",
    "Verif.Props.C91_value",
    "Verif.Props.C91_constraint",
    "Verif.Props.C91_seminorm",
    "Verif.Props.C91_constraint_fails",
    "Verif.Props.C91_init",
    "Verif.Props.C91_initial_fails",
    "Verif.Props.C91_selectors_fails"
   ],
   "note": "The property is false of the code as stated in these cases, proved with witnesses: [C91_shapes_fails] **C91** fails with `shapes` outside a problem: when a group has another shape, `proximal(q)` never returns for a quadratic whose center and linear term are both arrays (the query of FISTA), nor for one whose linear term is a number. [C91_conjugate_fails] **C91** fails on penalties that leave a coordinate free: whatever the atoms, if some coordinate is in no group then the object returned by `conjugate` does not denote the conjugate (which is infinite where that coordinate is not 0). [C91_smoothed_fails] **C91** fails for smoothing: `smoothed(q)` of any separable penalty is built without complaint, and every evaluation of it (value, gradient, or both) raises ValueError, because `separable.proximal` does not see the quadratic put on the object. [C91_quadratic_fails] **C91** fails for an own quadratic: unlike every other atom, `nonsmooth_objective` and `proximal` of a separable penalty do not depend on the quadratic assigned to it. [C91_constraint_fails] **C91** fails for the constraint form: `constraint(x, bound)` accepts points whose `seminorm(x, lagrange=1)` exceeds the bound, because every block gets the whole bound. [C91_initial_fails] **C91** fails for `initial`: a separable penalty built with an initial value cannot be the penalty of a problem, because the constructor drops the value and never sets `coefs` (AttributeError). [C91_selectors_fails] **C91** fails for `selectors`: reading it raises NameError on every separable penalty with at least one group. Proved in part: [C91_conjugate_partial] **C91** (partial) on every separable penalty whose groups select each coordinate exactly once and whose atoms are seminorms in either form (any offset array, any linear and constant term), `conjugate` is a separable penalty with the same groups and shapes, every atom in the other form with the same parameter, and it denotes the Fenchel conjugate of the sum. Missing: coordinates in no group (`C91_conjugate_fails`) and an own quadratic (`C91_smoothed_fails`)."
  },
  {
   "property": "C92",
   "status": "partial",
   "theorems": [
    "Verif.Props.C92_values_partial",
    "Verif.Props.C92_others_untouched",
    "Verif.Props.C92_copy_same",
    "Verif.Props.C92_shared_quadratic_fails",
    "Verif.Props.C92_shared_weights_fails",
    "Verif.Props.C92_block_copy_fails",
    "Verif.Props.C92_conjugate_alias_fails",
    "Verif.Props.C92_affine_alias_fails",
    "Verif.Props.C92_stale_weights_fails"
   ],
   "note": "The property is false of the code as stated in these cases, proved with witnesses: [C92_shared_quadratic_fails] **C92** (fails) In the weighted atoms, slope, the sparse-group classes, the linear, simplex and maximum constraints, `svd_cone` and the mixed lasso a copy shares the quadratic object with the original: whenever the copy succeeds, setting `copy.quadratic.coef` sets the coefficient of the original too. [C92_shared_weights_fails] **C92** (fails) Copies of `mixed_lasso` share the dictionary of weights: writing a weight of the copy changes the original. [C92_block_copy_fails] **C92** (fails) `copy` of `block_sum` and `block_max` always raises. [C92_conjugate_alias_fails] **C92** (fails) The conjugate's offset is the array of the atom's linear term: whenever that array has a nonzero entry and the conjugate exists, writing in place into `conjugate.offset` changes the linear term of the atom. [C92_affine_alias_fails] **C92** (fails) Composing an atom that has no offset keeps the array of the transform: writing in place into the offset of the inner atom changes the transform, and every other atom composed with it. [C92_stale_weights_fails] **C92** (fails) Writing into the dictionary `weights` of a group lasso, instead of calling `set_weight`, leaves the array the methods use: the copy, which recomputes it, is a different penalty. Proved in part: [C92_values_partial] **C92** (partial) Atoms behave like independent values. Run any program that makes atoms and transforms, copies atoms, takes conjugates, composes with affine maps, sets lagrange, bound, offset, quadratic and group weights, solves, and writes in place into arrays and quadratics. What each atom then holds, and what each transform holds, is what the same program gives on plain records, where every call reads and writes the one record it names. Assumed: a program that takes conjugates or composes does not also write in place into offsets, centres or linear terms, and no program writes in place into the quadratic, or the weights dictionary, of an atom of a class whose copies share it. Missing: these excluded programs, for which the statement is false of the code (the `_fails` theorems)."
  },
  {
   "property": "C93",
   "status": "partial",
   "theorems": [
    "Verif.Props.C93_value_doubled",
    "Verif.Props.C93_value_partial",
    "Verif.Props.C93_offset_value_fails",
    "Verif.Props.C93_feasibility_fails",
    "Verif.Props.C93_dual_constraint_partial",
    "Verif.Props.C93_dual_constraint_fails",
    "Verif.Props.C93_dual_value_fails",
    "Verif.Props.C93_constraint_fails",
    "Verif.Props.C93_conjugate",
    "Verif.Props.C93_conjugate_smooth",
    "Verif.Props.C93_involution",
    "Verif.Props.C93_smooth_conjugate_partial",
    "Verif.Props.C93_smooth_value_fails",
    "Verif.Props.C93_smoothed_partial",
    "Verif.Props.C93_eq_partial",
    "Verif.Props.C93_eq_fails",
    "Verif.Props.C93_copy",
    "Verif.Props.C93_proximal_partial",
    "Verif.Props.C93_proximal_raises",
    "Verif.Props.C93_enumeration"
   ],
   "note": "The property is false of the code as stated in these cases, proved with witnesses: [C93_offset_value_fails] **C93** with an offset the reported value is not the documented one: for `mixed_lasso([-2], lagrange=1, offset=[1])` the documented value at `[1]` is `|1 - 1| = 0`, the reported one is `|1 - 2| = 1`. [C93_feasibility_fails] **C93** with `check_feasibility=True` a feasible point can be reported infinite: for `mixed_lasso([-4], lagrange=1)` at `[0]` the documented value is 0. [C93_dual_constraint_fails] **C93** `constraint` of the dual class ignores unpenalised coordinates: for `mixed_lasso_dual([-1], bound=1)` it returns True at `[5]`, which is not in the dual ball (`proximal` projects on `{0}`). [C93_dual_value_fails] **C93** `nonsmooth_objective(x, check_feasibility=True)` of the dual class adds the bool returned by `constraint`: for `mixed_lasso_dual([-2], bound=1)` it is 1 at the feasible point `[0]` (documented 0) and 0 at the infeasible point `[5]` (documented infinity). [C93_constraint_fails] **C93** `constraint` of the primal class compares `lagrange` times the penalty with the bound: for `mixed_lasso([-2], lagrange=2)` the point `[1]` with penalty 1 violates the bound 1. [C93_smooth_value_fails] **C93** with an offset the value of a smooth conjugate is wrong: for `f = mixed_lasso([-2], lagrange=1, offset=[1])` with the quadratic `1/2 z²`, `smooth_objective([1], 'func')` is smaller than `⟨x,z⟩ - f(z)` at `z = [1]`. [C93_eq_fails] **C93** objects that compare equal can denote different functions. Proved in part: [C93_value_partial] **C93** `nonsmooth_objective(x, check_feasibility=False)` is the documented function at every point where that is finite, for the dual class and for mixed LASSO objects without offset. Missing: offsets (`C93_offset_value_fails`). [C93_dual_constraint_partial] **C93** `constraint` of the dual class, without offset, when every coordinate has an l1 or positive part penalty or belongs to a group of positive weight: it returns True exactly on the dual ball. Missing: unpenalised and nonnegative coordinates and groups of weight 0 (`C93_dual_constraint_fails`) and offsets (subtracted twice). [C93_smooth_conjugate_partial] **C93** `smooth_conjugate(f, q)` of a mixed LASSO object without offset, or of a dual object with any offset, with positive parameter and coefficients adding to a positive number: `smooth_objective` returns in its three modes the conjugate of `f + q` and the point where the supremum is attained, that point is the gradient, and the gradient is Lipschitz with the constant in `lipschitz`. Missing: mixed LASSO objects with an offset (`C93_smooth_value_fails`). [C93_smoothed_partial] **C93** `f.smoothed(q)` of a mixed LASSO object with any array offset and linear term, or of a dual object whose linear term is absent or zero: it is built, evaluates `sup_u ⟨x,u⟩ - f*(u) - q(u)` for the conjugate `f*` of the documented function, returns its gradient, and the gradient is Lipschitz with constant `1/q.coef`. Missing: dual objects with a linear term, for which the conjugate has an offset. [C93_eq_partial] **C93** two objects that compare equal have the same class, labels, weights and parameter, hence the same documented function when offset and quadratic agree. Missing: `==` does not compare those (`C93_eq_fails`). [C93_proximal_partial] **C93** `proximal` of a mixed LASSO object or of its dual, with a positive parameter, for every labelling, every choice of nonnegative weights, every order in which Python enumerates the groups, every offset and every quadratic: called with a quadratic that has an array center or linear term and a positive total coefficient it returns the unique minimiser of the documented function plus that quadratic. Missing: parameter 0, for which a zero l1 coordinate gives nan (`C56_lagrange_zero_fails`)."
  },
  {
   "property": "C94",
   "status": "partial",
   "theorems": [
    "Verif.Props.C94_training_loss",
    "Verif.Props.C94_subsample_partial",
    "Verif.Props.C94_raises",
    "Verif.Props.C94_null",
    "Verif.Props.C94_null_gradient",
    "Verif.Props.C94_null_optimal",
    "Verif.Props.C94_warm_fold_partial",
    "Verif.Props.C94_fold_minimiser",
    "Verif.Props.C94_strong_fold_partial",
    "Verif.Props.C94_strong_total",
    "Verif.Props.C94_empty_training",
    "Verif.Props.C94_linpred",
    "Verif.Props.C94_first_score_fails",
    "Verif.Props.C94_affine_design_fails",
    "Verif.Props.C94_scores",
    "Verif.Props.C94_default_score",
    "Verif.Props.C94_cross_validate_partial",
    "Verif.Props.C94_no_leak"
   ],
   "note": "The property is false of the code as stated in these cases, proved with witnesses: [C94_first_score_fails] **C94** fails for the first lagrange parameter with `strong_rules`, the default fitter: its first row is the solution of the initial data, and by default that is the null solution of all cases, the held-out ones included. Least squares with an unpenalised intercept and responses 0 and 2, leave-one-out: for every exact solver the score reported for the first lagrange parameter is 1, while the coefficients that are optimal for the training case of a fold have squared prediction error 4 on the held-out case. [C94_affine_design_fails] **C94** fails for a design with an offset: the constructor, the subproblems and the linear predictors of the scores apply only the linear part of the design, `full_loss`, which `warm_start` minimises, applies the offset too. With the design `b ↦ 1 + b` and response 1 every exact solver gives the null solution 1, while the unpenalised fit is 0. Proved in part: [C94_subsample_partial] **C94** `path.subsample(case_idx)` never raises on a path the constructor accepts, keeps the design, the weights and the elastic net parameters, and its loss at any linear predictor is the loss of the full data with `case_weights` one on the subsample and zero elsewhere. Missing: huber and huber_svm losses with case weights, which their copy drops. [C94_warm_fold_partial] **C94** cross-validation with `warm_start`, one fold: for every design, loss, weights, initial data, sequence of lagrange parameters and set of training cases that is not empty, if the solver is accurate and the fold's problems have minimisers, the fold does not raise and row `k` is optimal up to `eps` for the elastic net problem of the training cases at the `k`-th lagrange parameter. Missing: designs with an offset (`C94_affine_design_fails`), and huber losses with case weights. [C94_strong_fold_partial] **C94** cross-validation with `strong_rules`, one fold, all features penalised, default initial data, exact subproblem solver, convex loss: the fold does not raise, the first row is zero, one row follows for each later lagrange parameter, and a row appended without the warning is optimal, up to the tolerance 1/100 of the KKT check, for the elastic net problem of the training cases at its own lagrange parameter. Missing: unpenalised features (C40_unpenalized_fails, C94_first_score_fails) and the logistic loss, which is not convex as computed (C29). [C94_cross_validate_partial] **C94** cross-validation with `warm_start`, all folds: for every design without offset, every loss whose case weights survive `subsample`, and every nonempty list of folds with training cases, if the solver is accurate and the problems of the folds have minimisers, `cross_validate` does not raise; entry `k` of the first array it returns is the average over the folds of the mean squared prediction error, on the held-out cases, of coefficients that are optimal up to `eps` for the elastic net problem of the training cases at the `k`-th lagrange parameter."
  },
  {
   "property": "C95",
   "status": "partial",
   "theorems": [
    "Verif.Props.C95_rows",
    "Verif.Props.C95_progress",
    "Verif.Props.C95_optimal",
    "Verif.Props.C95_schedule_free",
    "Verif.Props.C95_sequential",
    "Verif.Props.C95_args_kept",
    "Verif.Props.C95_cross_validate_partial",
    "Verif.Props.C95_folds",
    "Verif.Props.C95_step_race_fails",
    "Verif.Props.C95_tol_race_fails",
    "Verif.Props.C95_user_args_fails"
   ],
   "note": "The property is false of the code as stated in these cases, proved with witnesses: [C95_step_race_fails] **C95** the result of a threaded run is not that of the sequential run: there are a solver that always meets the requested tolerance, two calls with the same tolerance, and a schedule in which both finish, such that the first call's row is not the one it computes when it runs alone: the second thread's `start_step` reached the first thread's solver. [C95_tol_race_fails] **C95** the tolerance of a call is not its own: two concurrent calls with different `inner_tol`, a solver that always meets the tolerance it is given, and a schedule in which both finish, such that the row of the call with `inner_tol` 0 is not optimal. [C95_user_args_fails] **C95** a tolerance given in `solve_args` is ignored, and the dictionary that the caller passed is changed: after any call with a nonempty sequence that finishes alone its `tol` is `inner_tol`. Proved in part: [C95_cross_validate_partial] **C95** cross-validation in threads: for every design, loss, weights, initial data, sequence of lagrange parameters and folds whose training sets are not empty, every choice of initial steps, every initial content of the shared dictionary and every schedule in which each fold gets its turns, each fold finishes with one row per lagrange parameter, and row `k` is optimal up to `eps` for the elastic net problem of the fold's own training cases at the `k`-th lagrange parameter. Missing: designs with an offset (`C94_affine_design_fails`), huber losses with case weights, and equality with the sequential result (`C95_step_race_fails`)."
  },
  {
   "property": "C96",
   "status": "partial",
   "theorems": [
    "Verif.Props.C96_regression",
    "Verif.Props.C96_no_bad_steps",
    "Verif.Props.C96_stop_reason",
    "Verif.Props.C96_pass_bound",
    "Verif.Props.C96_pass_bound_start",
    "Verif.Props.C96_ends_by_tolerance",
    "Verif.Props.C96_tol_limit_fails"
   ],
   "note": "The property is false of the code as stated in these cases, proved with witnesses: [C96_tol_limit_fails] **C96** fails: no tolerance makes the stopping rule safe. For every gap there is one convex problem (`f x = max(x, 0)²/4 - K x` in one dimension, gradient `1/2`-Lipschitz, exact proximal map), one start and one point `x5`, such that `fit` called with any `tol > 0` and every other argument at its default stops after five recorded passes and returns `x5`, which is worse than the minimum by more than the gap. The sixth proposal overshoots the minimiser and has exactly the objective of `x5`; the rule reads this as convergence, so asking for a smaller tolerance does not change the answer."
  },
  {
   "property": "C97",
   "status": "partial",
   "theorems": [
    "Verif.Props.C97_refl",
    "Verif.Props.C97_copy",
    "Verif.Props.C97_symm_partial",
    "Verif.Props.C97_trans_partial",
    "Verif.Props.C97_sound_partial",
    "Verif.Props.C97_slope_fails",
    "Verif.Props.C97_sparse_group_fails",
    "Verif.Props.C97_offset_fails",
    "Verif.Props.C97_quadratic_fails",
    "Verif.Props.C97_shape_fails",
    "Verif.Props.C97_trans_fails",
    "Verif.Props.C97_group_bound_fails",
    "Verif.Props.C97_complete_fails",
    "Verif.Props.C97_symm_fails",
    "Verif.Props.C97_linear_close",
    "Verif.Props.C97_quadratic_self",
    "Verif.Props.C97_quadratic_close",
    "Verif.Props.C97_quadratic_symm_fails",
    "Verif.Props.C97_noneify"
   ],
   "note": "The property is false of the code as stated in these cases, proved with witnesses: [C97_slope_fails] **C97** (fails): two `slope` penalties with the same multiplier compare equal whatever their weights, although the penalty at the vector of ones is the multiplier times the sum of the weights. [C97_sparse_group_fails] **C97** (fails): two `sparse_group_lasso` penalties compare equal whatever their `lasso_weights`; the two penalties differ at the vector of ones. [C97_offset_fails] **C97** (fails): an `l1norm` with an offset and one without compare equal, in every dimension. [C97_quadratic_fails] **C97** (fails): an `l1norm` with a quadratic and one without compare equal, in every dimension. [C97_shape_fails] **C97** (fails): penalties on spaces of different dimensions compare equal: `l1norm(n, lagrange=l) == l1norm(m, lagrange=l)` for all `n`, `m`, and a weighted norm with one weight equals one with several. [C97_trans_fails] **C97** (fails): `==` of weighted norms is not transitive: weights `[1, 1] == [1] == [1, 1, 1]`, and the comparison of the first with the last raises. [C97_group_bound_fails] **C97** (fails): two group LASSO constraints compare equal whatever their bounds (only `lagrange`, `None` for both, is compared). For every grouping with positive weights there are two bounds and a point feasible for one constraint only. [C97_complete_fails] **C97** (fails): equal functions may be unequal objects: a `mixed_lasso` with the default weights and one with the same weights written out have the same value and proximal map, and compare unequal. [C97_symm_fails] **C97** (fails): `==` is not symmetric, and equal objects can be different constraints: there are unit vectors `u`, `v` of the plane such that, for the projections onto the lines they span, `A == B` is `True`, `B == A` is `False`, and the proximal maps of `A` and `B` differ. [C97_quadratic_symm_fails] **C97** (fails): `==` of quadratics is not symmetric. Proved in part: [C97_symm_partial] **C97** (missing: the linear constraints, see `C97_symm_fails`): `A == B` and `B == A` have the same outcome, for any two constructed penalties of any shapes and classes. [C97_trans_partial] **C97** (missing: the linear constraints; weighted norms of different lengths, see `C97_trans_fails`): if `A == B` and `B == C` then `A == C`. [C97_sound_partial] **C97** (missing: the classes of `C97_slope_fails`, `C97_sparse_group_fails`, `C97_group_bound_fails` and `C97_symm_fails`; equal shape, offset and quadratic are hypotheses, see `C97_offset_fails`, `C97_quadratic_fails`, `C97_shape_fails`): equal penalties have the same value and the same proximal map at every argument."
  },
  {
   "property": "C98",
   "status": "partial",
   "theorems": [
    "Verif.Props.C98_refines_partial",
    "Verif.Props.C98_copy_independent",
    "Verif.Props.C98_copy_leaves_original",
    "Verif.Props.C98_data_fails",
    "Verif.Props.C98_shared_loss_fails",
    "Verif.Props.C98_copy_coef_fails",
    "Verif.Props.C98_hessian_coef_fails",
    "Verif.Props.C98_failed_assignment_fails",
    "Verif.Props.C98_edit_fails"
   ],
   "note": "The property is false of the code as stated in these cases, proved with witnesses: [C98_data_fails] **C98** Assigning `data` does not work: after `g.data = X2, y` the value still uses the design the object was built with, while the linear predictor, `data`, the Hessian and a copy use the new one. Here `X = 1`, `X2 = 2`, `y = 0`, `beta = 1`: the value is `1/2` instead of `2`, a copy gives `2`. [C98_shared_loss_fails] **C98** Two `glm` objects built on one saturated loss are not separate: building the second one with its own response replaces the response of the first, whose value at the same point jumps from `1/2` to `8`. [C98_copy_coef_fails] **C98** A copy forgets `coef`: a loss with `coef = 3` and value `3/2` has a copy with value `1/2`. [C98_hessian_coef_fails] **C98** `hessian` forgets `coef`: with `coef = 3` the gradient at `b` is `3 b`, the Hessian `1`. [C98_failed_assignment_fails] **C98** An assignment that raises ValueError has happened nevertheless: after the logistic loss refused the response `2` with one trial, `data` is the refused response with the new design. [C98_edit_fails] **C98** An object keeps the caller's arrays: editing the weight array in place changes its value (from `1/2` to `7/2`), and multiplying its `case_weights` in place changes the caller's array. Proved in part: [C98_refines_partial] **C98** As long as losses are built by `glm.gaussian` and the like, no saturated loss is shared, no array is edited in place, `data` is assigned with the design it has and a response the loss accepts, and objects with a `coef` other than 1 are not copied or asked for a Hessian, a program sees exactly what it would see if every `glm` were a value of its own: an evaluation depends on the last assigned attributes of the object it names and on nothing else, and no statement shows on another object. Missing (and false, see the `_fails` theorems): the statements excluded."
  },
  {
   "property": "C99",
   "status": "partial",
   "theorems": [
    "Verif.Props.C99_refines_partial",
    "Verif.Props.C99_kept",
    "Verif.Props.C99_solve",
    "Verif.Props.C99_point_kept",
    "Verif.Props.C99_warm_start",
    "Verif.Props.C99_fresh_start",
    "Verif.Props.C99_newton",
    "Verif.Props.C99_admm",
    "Verif.Props.C99_used_atom_fails",
    "Verif.Props.C99_write_fails",
    "Verif.Props.C99_edit_result_fails",
    "Verif.Props.C99_newton_fails",
    "Verif.Props.C99_admm_fails",
    "Verif.Props.C99_loss_point_fails",
    "Verif.Props.C99_niter_zero_fails"
   ],
   "note": "The property is false of the code as stated in these cases, proved with witnesses: [C99_used_atom_fails] **C99** (used atom) A problem built on an atom that was used before starts where the atom's last proximal call ended, not at `initial`: one step on `½(x-1)²` from a fresh atom gives `1/2`, the same statement after another problem used the atom `3/4`. [C99_write_fails] **C99** (assignment) `problem.coefs[:] = v`, as `nesta` does to start a problem, changes the solution another problem returned earlier, when the two problems share the atom. [C99_edit_result_fails] **C99** (editing a solution) Editing the array returned by `solve` moves the point from which the problem starts next. [C99_newton_fails] **C99** (quasi-Newton twice) A second `quasi_newton.solve` that converges in its first iteration overwrites the solution the first one returned. [C99_admm_fails] **C99** (ADMM) `admm_problem.solve` overwrites the solution `loss.solve` returned before the problem was made. [C99_loss_point_fails] **C99** (loss) Putting a loss in a problem moves the point from which `loss.solve` starts: one step from the loss's own point would give `3/4`, it gives `1/2`. [C99_niter_zero_fails] **C99** (`niter=0`) `quasi_newton.solve(niter=0)` raises in every session. Proved in part: [C99_refines_partial] **C99** (values) Every session that makes atoms, losses and `simple_problem`s, solves them in any order and reads coefficients shows the caller exactly the values it would show if nothing were shared: each solve starts at the current point of its problem, each result is the last accepted point of its run. What is missing for the full property: statements that write in place, for which it is false (`C99_write_fails`, `C99_newton_fails`, `C99_admm_fails`)."
  },
  {
   "property": "C100",
   "status": "partial",
   "theorems": [
    "Verif.Props.C100_objective",
    "Verif.Props.C100_certificate",
    "Verif.Props.C100_returns",
    "Verif.Props.C100_rate",
    "Verif.Props.C100_keeps_solution",
    "Verif.Props.C100_sum",
    "Verif.Props.C100_affine_partial",
    "Verif.Props.C100_quadratic_partial",
    "Verif.Props.C100_squared_error",
    "Verif.Props.C100_glm",
    "Verif.Props.C100_cox_partial",
    "Verif.Props.C100_smoothed",
    "Verif.Props.C100_logistic_certificate_partial",
    "Verif.Props.C100_sum_quadratic_fails",
    "Verif.Props.C100_affine_quadratic_fails"
   ],
   "note": "The property is false of the code as stated in these cases, proved with witnesses: [C100_sum_quadratic_fails] **C100** `smooth.sum` drops the quadratics of its summands: the objective of the sum of one loss with weight one is not the objective of that loss. [C100_affine_quadratic_fails] **C100** `affine_smooth` drops the quadratic of the loss it composes: the objective of the composition with the identity is not the objective of the loss. Proved in part: [C100_affine_partial] **C100** An affine composition of a loss is a loss: if `loss` stands for the convex `f`, then `affine_smooth(loss, T)` stands for `f ∘ T` with gradient `T'(grad f (T x))`; if `grad f` is `M`-Lipschitz and `‖T x - T y‖² ≤ K ‖x - y‖²`, its gradient is `M K`-Lipschitz. Missing: selectors with repeated positions (`C26_repeated_selector_fails`); the quadratic of the inner loss is not part of the composition (`C100_affine_quadratic_fails`). [C100_quadratic_partial] **C100** `quadratic_loss(shape, Q, coef, offset, quadratic)` with symmetric positive semidefinite `Q` is a loss for `coef/2 (x - α)'Q(x - α)` with gradient `coef Q(x - α)`; if `x'Qx ≤ K ‖x‖²` its gradient is `coef K`-Lipschitz. (Partial: an asymmetric `Q` is excluded, `C28_quadratic_fails`.) [C100_cox_partial] **C100** A Cox regression is a loss: `glm.cox(X, times, censoring, ...)`, however the times are tied and sorted, fresh or after any calls of `smooth_objective`, stands for `coef` times the negative log partial likelihood of the linear predictors, which is convex; and if every row of `X` has `‖xᵢ‖² ≤ R`, its gradient is `coef (∑ᵢ cᵢ wᵢ) R`-Lipschitz, with no bound on the coefficients. Missing: weights that leave a risk set without weight, for which the loss is nan (`C51_zero_risk_fails`). [C100_logistic_certificate_partial] **C100** Optimality certificate for logistic regression with any atom: at every `β` whose linear predictors are all at most 100, for every `L > 0`, the proximal gradient step of the problem exists, and `β` minimises the exact logistic objective over all coefficients exactly when the step leaves it where it is. (The code clips larger predictors, so its own loss is not convex, `C29_logistic_fails`.) Missing: coefficients with a predictor above 100."
  },
  {
   "property": "C101",
   "status": "partial",
   "theorems": [
    "Verif.Props.C101_polar",
    "Verif.Props.C101_conjugate",
    "Verif.Props.C101_involution",
    "Verif.Props.C101_values",
    "Verif.Props.C101_proximal_partial",
    "Verif.Props.C101_dual",
    "Verif.Props.C101_cone_dual",
    "Verif.Props.C101_solve",
    "Verif.Props.C101_l2_epigraph_fails",
    "Verif.Props.C101_operator_offset_fails",
    "Verif.Props.C101_constructor_subtracts",
    "Verif.Props.C101_constructor_offset_fails"
   ],
   "note": "The property is false of the code as stated in these cases, proved with witnesses: [C101_l2_epigraph_fails] **C101** fails for the epigraph of the l2 norm: `l2_epigraph((2,)).proximal` with center `(1; 3)`, a point of the cone, returns `(2; 2)`. [C101_operator_offset_fails] **C101** fails for a transform with an offset: `nonnegative.linear(affine_transform(1, -1))` should be the constraint `x - 1 ≥ 0`; `x = 0` is accepted, the offset being dropped. [C101_constructor_offset_fails] **C101** fails for `affine_cone(cone, affine_transform(D, α))`: `affine_atom` documents the composition with `D x + α`; `nonnegative` composed with `x + 1` accepts `x = 1` and rejects `x = 0`, where `x + 1 = 1` is nonnegative. Proved in part: [C101_proximal_partial] **C101** `proximal` of a cone object, for the eight classes other than the epigraph of the l2 norm and its polar, with any offset and any linear and constant term: for a quadratic with positive coefficient and array center it returns, and what it returns is the unique minimiser of the quadratic plus the function of the object. Missing: the l2 epigraph and its polar, where it is false (`C101_l2_epigraph_fails`)."
  },
  {
   "property": "C102",
   "status": "partial",
   "theorems": [
    "Verif.Props.C102_seminorm_family",
    "Verif.Props.C102_group_lasso_family",
    "Verif.Props.C102_null_threshold",
    "Verif.Props.C102_null_value_partial",
    "Verif.Props.C102_sequence_partial",
    "Verif.Props.C102_path",
    "Verif.Props.C102_path_solve",
    "Verif.Props.C102_bound_form",
    "Verif.Props.C102_multiplier",
    "Verif.Props.C102_prox_nonexpansive",
    "Verif.Props.C102_ridge",
    "Verif.Props.C102_ridge_solve",
    "Verif.Props.C102_fitted_values",
    "Verif.Props.C102_response",
    "Verif.Props.C102_null_value_fails"
   ],
   "note": "The property is false of the code as stated in these cases, proved with witnesses: [C102_null_value_fails] **C102** For `positive_part` the conjugate seminorm misleads in both settings of `check_feasibility`. Least squares with one case and one coefficient: with response -1 the unchecked number is -1, below every multiplier, but zero is not the solution; with response 0 zero is the solution, but the checked number is infinite. Proved in part: [C102_null_value_partial] **C102** The same threshold as a number: for the l1, sup and l2 norm and for `constrained_max` and `constrained_positive_part`, zero minimises the documented objective exactly when the conjugate seminorm, as the code computes it with `lagrange=1`, of minus the gradient at zero is at most the multiplier. Full property: the same for `positive_part` and `max_positive_part`, whose conjugates are `constrained_max` and `constrained_positive_part`; it fails for both, see `C102_null_value_fails`. [C102_sequence_partial] **C102** The default sequence of multipliers starts where the solution leaves zero: for the l1, sup and l2 norm and for `constrained_max` and `constrained_positive_part`, a loss whose smooth part has gradient `s` at zero, and any `0 < lagrange_proportion < 1` and at least two steps, `default_lagrange_sequence(penalty, -s)` has `nstep` decreasing entries; zero solves the problem at the first entry, and at no later one (unless all entries are zero). For the three norms `default_lagrange_sequence(penalty, s)`, as the path code calls it, is the same sequence."
  },
  {
   "property": "C103",
   "status": "partial",
   "theorems": [
    "Verif.Props.C103_constructor_subtracts",
    "Verif.Props.C103_values",
    "Verif.Props.C103_conjugate",
    "Verif.Props.C103_involution",
    "Verif.Props.C103_proximal",
    "Verif.Props.C103_dual",
    "Verif.Props.C103_solve",
    "Verif.Props.C103_group_family",
    "Verif.Props.C103_group_sharp",
    "Verif.Props.C103_svd_family",
    "Verif.Props.C103_svd_sharp_partial",
    "Verif.Props.C103_zero_weight_fails",
    "Verif.Props.C103_svd_sharp_fails"
   ],
   "note": "The property is false of the code as stated in these cases, proved with witnesses: [C103_zero_weight_fails] **C103** fails for a group of weight zero: labels `0, 1` with weights `0, 1`. The conjugate of the epigraph object accepts `(5, 0; -1)`, whose inner product with the member `(1, 0; 0)` of the epigraph is positive: it is not in the polar cone. [C103_svd_sharp_fails] **C103** fails for the feasibility test of the nuclear norm: the `1 × 1` matrix `(1)` with bound 0 is accepted, and so is any matrix of rank one with any bound `≥ 0`. Proved in part: [C103_svd_sharp_partial] **C103** the feasibility tests of three of the four classes of matrix norms are sharp. Missing: the epigraph of the nuclear norm, where it is false (`C103_svd_sharp_fails`)."
  },
  {
   "property": "C104",
   "status": "partial",
   "theorems": [
    "Verif.Props.C104_entries_lagrange",
    "Verif.Props.C104_entries_bound",
    "Verif.Props.C104_linf_l2_bound_partial",
    "Verif.Props.C104_sparse_group_block",
    "Verif.Props.C104_sparse_group_block_dual",
    "Verif.Props.C104_svd_lagrange",
    "Verif.Props.C104_svd_bound",
    "Verif.Props.C104_bound_tests",
    "Verif.Props.C104_row_norms_partial",
    "Verif.Props.C104_zero_row_fails",
    "Verif.Props.C104_row_norms_numbers",
    "Verif.Props.C104_stacked_partial",
    "Verif.Props.C104_least_squares_partial",
    "Verif.Props.C104_regression_partial",
    "Verif.Props.C104_stack_weights_fails",
    "Verif.Props.C104_zero_column_fails",
    "Verif.Props.C104_multinomial_partial",
    "Verif.Props.C104_multinomial_certificate_partial"
   ],
   "note": "The property is false of the code as stated in these cases, proved with witnesses: [C104_zero_row_fails] **C104** Without offset and own quadratic the three proximal maps fail when the argument `x - u/L` has a zero row: a coefficient row that is exactly zero with a zero gradient makes the result nan. [C104_stack_weights_fails] **C104** Case weights given to the stack are applied once more at every evaluation: the `mglm` hands its own weight array to the stack, which multiplies it in place. With one case of response 0, one unit coefficient and stack weight 2 the loss is 1 at the first evaluation and 2 at the second. [C104_zero_column_fails] **C104** A feature that is zero in every case makes `solve` fail for a row penalty: with the `l1_l2` penalty of any multiplier, least squares responses and a design with a zero column, the default start at zero coefficients makes the first proximal step divide 0 by 0. Proved in part: [C104_linf_l2_bound_partial] **C104** `linf_l2` in bound form with a positive bound stands for the constraint that no row of the shifted matrix has a norm above the bound. Missing: bound zero (`C57_linf_l2_bound_zero_fails`). [C104_row_norms_partial] **C104** `l1_l2` (in both forms) and `linf_l2` in Lagrange form: whenever the proximal map returns numbers they are the unique minimiser of the quadratic plus `lam ∑ᵢ ‖Bᵢ‖`, the constraint `∑ᵢ ‖Bᵢ‖ ≤ b`, or `lam maxᵢ ‖Bᵢ‖` of the shifted matrix plus the own quadratic; the values are those of these functions. Missing: arguments with a zero row, at which the result is nan (`C104_zero_row_fails`). [C104_stacked_partial] **C104** A `mglm` over a stack of losses is a loss: for columns of least squares, Poisson, Huber and Huber SVM type, mixed in any way and each with its own coefficient and offset, with any stack coefficient, offsets, nonnegative case weights of the `mglm` and convex quadratic, fresh or after any history of evaluations, it stands for the sum over the columns of the weighted losses of the predictors of that column; and if every column has curvature `coef κⱼ ∑ᵢ wᵢ ‖xᵢ‖² ≤ M` its gradient is `M`-Lipschitz. Missing: case weights of the stack itself (`C104_stack_weights_fails`) or of its columns (`C28_stacked_fails`). [C104_least_squares_partial] **C104** `mglm(X, stacked_common_loglike.gaussian(responses, coef=coef, offset=so), offset=o, case_weights=w, quadratic=quad)`, fresh or after any history of evaluations, is the least squares loss of all responses, and its gradient is `coef ∑ᵢ wᵢ ‖xᵢ‖²`-Lipschitz. Missing: weights given to the stack instead of the `mglm` (`C104_stack_weights_fails`). [C104_regression_partial] **C104** Multi-response least squares with a matrix penalty is solved: for any atom standing for a penalty `pen` (nuclear and operator norm, block norms, `C104_svd_lagrange`, `C104_entries_lagrange`, ...), from any start, `solve` with `m ≤ 99` iterations, backtracking and no restarts returns coefficients of finite documented objective, within `2 ‖B₀ - B‖² / (t (k + 1)²)` of the minimum after `k` passes, `t = min(start_inv_step, 1 / (2 M alpha))`, `M = coef ∑ᵢ wᵢ ‖xᵢ‖²`; and a proximal gradient step of any length leaves `B` where it is exactly when `B` minimises. Missing: as in `C104_least_squares_partial`. [C104_multinomial_partial] **C104** A multinomial `mglm` given a quadratic, as a loss: at every coefficient matrix whose linear predictors are all within 50 in absolute value the three modes agree and give the exact negative log likelihood and its gradient. Missing: matrices with a predictor beyond 50 (`C28_multinomial_fails`). [C104_multinomial_certificate_partial] **C104** Optimality certificate for multinomial regression with any matrix atom: at every coefficient matrix whose linear predictors are all within 50 in absolute value and for every `L > 0` the proximal gradient step exists, and the matrix minimises the exact penalised negative log likelihood over all matrices exactly when the step leaves it where it is. Missing: matrices with a predictor beyond 50, where the code clips and its loss is not convex (`C29_multinomial_fails`)."
  },
  {
   "property": "C105",
   "status": "partial",
   "theorems": [
    "Verif.Props.C105_cox_partial",
    "Verif.Props.C105_cox_regression_partial",
    "Verif.Props.C105_admissible",
    "Verif.Props.C105_cox_stack_weights_fails",
    "Verif.Props.C105_zero_risk_fails",
    "Verif.Props.C105_huber_svm_partial",
    "Verif.Props.C105_huber_svm_coef_fails",
    "Verif.Props.C105_broken_fails"
   ],
   "note": "The property is false of the code as stated in these cases, proved with witnesses: [C105_cox_stack_weights_fails] **C105** Weights given to `stacked_common_loglike.cox` itself are applied once more at every evaluation of the `mglm`, and reach the second column too: with one case, weight 2 and one observed event time the loss is `2 log 2` at the first evaluation and `4 log 4` at the second, at every coefficient. [C105_zero_risk_fails] **C105** One risk set without weight in one column makes the value of the whole loss nan, at every coefficient. [C105_huber_svm_coef_fails] **C105** `stacked_common_loglike.huber_svm` ignores its argument `coef`: for all arguments the object does not depend on it, and with one case, label 1, unit design and `coef = 2` the loss at 0 is 1/2 instead of the documented 1. [C105_broken_fails] **C105** For every input `mglm.stacked`, `stacked_common_loglike.poisson` and `.huber` raise NameError, because their bodies use names bound neither by a parameter nor by the module, and `.logistic` raises TypeError with and without `trials`: no input makes them return an object. Proved in part: [C105_cox_partial] **C105** `mglm(X, stacked_common_loglike.cox(_, event_times, censoring, coef, offset=so), offset=o, case_weights=w, quadratic=quad)`, however the times of each column are tied and sorted, fresh or after any history of evaluations, stands for `coef` times the sum over the columns of the negative log partial likelihoods, which is convex; and its gradient is `M`-Lipschitz if `‖xᵢ‖² ≤ R` for every case and `coef (∑ᵢ cᵢⱼ wᵢ) R ≤ M` for every column. Missing: weights that leave a risk set without weight, for which the loss is nan (`C51_zero_risk_fails`), and weights of the stack itself (`C104_stack_weights_fails`). [C105_cox_regression_partial] **C105** Regression of several event times with a matrix penalty is solved: for any atom standing for a penalty `pen`, from any start, a proximal gradient step of any length leaves `B` where it is exactly when `B` minimises the documented objective; `solve` with backtracking returns coefficients of finite documented objective; and with `m ≤ 99` iterations and no restarts they are within `2 ‖B₀ - B‖² / (t (k + 1)²)` of the minimum after `k` passes, `t = min(start_inv_step, 1 / (2 M alpha))`. Missing: as in `C105_cox_partial`. [C105_huber_svm_partial] **C105** `mglm(X, stacked_common_loglike.huber_svm(_, successes, 1, offset=so), offset=o, case_weights=w, quadratic=quad)`, fresh or after any history of evaluations, stands for the sum over the columns of the weighted smoothed hinge losses; for labels 0 and 1 its gradient is `∑ᵢ wᵢ ‖xᵢ‖²`-Lipschitz. Missing: the argument `coef` (`C105_huber_svm_coef_fails`), smoothing parameters other than 1 (`C28_huber_svm_fails`), weights of the stack itself (`C104_stack_weights_fails`)."
  },
  {
   "property": "C106",
   "status": "partial",
   "theorems": [
    "Verif.Props.C106_group_lasso_dual",
    "Verif.Props.C106_group_lasso_dual_bound",
    "Verif.Props.C106_sparse_group_dual_bound_partial",
    "Verif.Props.C106_sparse_dual_feasibility_fails",
    "Verif.Props.C106_sparse_dual_lagrange_fails",
    "Verif.Props.C106_weighted_sup_lagrange_partial",
    "Verif.Props.C106_weighted_sup_bound_partial",
    "Verif.Props.C106_weighted_sup_values",
    "Verif.Props.C106_weighted_sup_infinite_fails",
    "Verif.Props.C106_slope_conjugate_bound",
    "Verif.Props.C106_slope_conjugate_lagrange_fails",
    "Verif.Props.C106_group_terms",
    "Verif.Props.C106_sparse_group_terms",
    "Verif.Props.C106_group_dual_terms",
    "Verif.Props.C106_weighted_l1_terms_partial",
    "Verif.Props.C106_weighted_l1_terms_fails",
    "Verif.Props.C106_weighted_sup_terms_inverse",
    "Verif.Props.C106_weighted_sup_terms_fails",
    "Verif.Props.C106_sparse_dual_norm_groups",
    "Verif.Props.C106_sparse_dual_terms_partial",
    "Verif.Props.C106_sparse_dual_seminorm_partial",
    "Verif.Props.C106_group_dual_feasibility_partial",
    "Verif.Props.C106_group_dual_feasibility_fails",
    "Verif.Props.C106_slope_conjugate_values",
    "Verif.Props.C106_primal_feasibility"
   ],
   "note": "The property is false of the code as stated in these cases, proved with witnesses: [C106_sparse_dual_feasibility_fails] **C106** fails for `nonsmooth_objective(x, check_feasibility=True)` of a `sparse_group_lasso_dual` in bound form. `constraint` returns a truth value: the objective is 1 too large at 0, a point of every ball, for all weights and bounds; and with one feature of lasso weight 1 and `bound = 1` it is 0 at the point 5, outside of the ball, where it should be infinite. [C106_sparse_dual_lagrange_fails] **C106** fails: a `sparse_group_lasso_dual` in Lagrange form is of no use. Its objective raises (here `nan`) and its proximal map raises, for all weights, parameters, quadratics and points. (For an object in bound form `seminorm(x, lagrange=1)` approximates the dual norm, C50.) [C106_weighted_sup_infinite_fails] **C106** fails without a finite weight: the objective at the only feasible point 0 raises (`max` of an empty array), in Lagrange and in bound form with the feasibility check. [C106_slope_conjugate_lagrange_fails] **C106** fails for `slope_conjugate` in Lagrange form: its proximal map never answers (`lagrange_prox` raises `NotImplementedError`). [C106_weighted_l1_terms_fails] **C106** fails for the weighted `l1norm.terms` with infinite weights: a coefficient that is 0, as it must be, gives the term nan, although the seminorm there is 0. [C106_weighted_sup_terms_fails] **C106** fails for the weighted `supnorm.terms`: with one feature of weight 2, at the point 1 the seminorm is 2 and the only term is `1/2`. [C106_group_dual_feasibility_fails] **C106** fails for a group of weight 0 of `group_lasso_dual`: with groups `{0}` of weight 1 and `{1}` of weight 0, the point `(0,5)` is declared feasible for every bound `b ≥ 0`, and in Lagrange form its value is 0; both times the penalty the proximal map works with is infinite there. Proved in part: [C106_sparse_group_dual_bound_partial] **C106** (partial) `sparse_group_lasso_dual` with a bound meets the contract of the solvers for the constraint that `z = x - offset` is in the dual ball of radius `bound`: its proximal map and its objective without feasibility check are right. Missing: with the check the objective is wrong, `C106_sparse_dual_feasibility_fails`, and there is no Lagrange form, `C106_sparse_dual_lagrange_fails`. [C106_weighted_sup_lagrange_partial] **C106** (partial) The weighted `supnorm` with a Lagrange multiplier stands for `lam * max_i w_i |z_i|` of `z = x - offset`, with `z_i = 0` wherever the weight is infinite, plus its quadratic. Finite weights are positive and at most `1e20`, and there is one. Missing: zero weights, for which `lagrange_prox` can return nan (`C23_sup_lagrange_prox_fails`), and the case of no finite weight, `C106_weighted_sup_infinite_fails`. [C106_weighted_sup_bound_partial] **C106** (partial) The weighted `supnorm` with a bound stands for the constraints `w_i |z_i| ≤ bound`, `z_i = 0` wherever the weight is infinite, on `z = x - offset`, plus its quadratic. Missing: `bound = 0` together with a zero weight, where `bound_prox` returns nan (`C23_sup_bound_zero_fails`), and the case of no finite weight. [C106_weighted_l1_terms_partial] **C106** (partial) The weighted `l1norm.terms(x)` for finite weights: they are the `w_i|x_i|`, and `seminorm(x, lagrange)` is `lagrange` times their sum. Missing: infinite weights, `C106_weighted_l1_terms_fails`. [C106_sparse_dual_terms_partial] **C106** (partial) `sparse_group_lasso_dual.terms(x)`: for every point every search ends, and the entry of a group approximates the dual norm of the penalty on this group; the largest of these dual norms is the dual norm of the whole penalty. Missing: the entries are off by the factor `1 + 1e-5/ρ` of the tolerance of the membership test; `ρ` is a lower bound of the total weight of a feature. [C106_sparse_dual_seminorm_partial] **C106** (partial) `sparse_group_lasso_dual.seminorm(x, lagrange)` of an object in bound form, for every point: the search ends, and the value is `r * lagrange` for a number `r` that approximates the dual norm `g` of `x`; it is 0 only if `g ≤ (1 + η) / 2^50`, and `inf` (nan for `lagrange = 0`) only if `g > 2^50`. Missing: the factor `1 + η` of the tolerance `1e-7` of the membership test, and the two exceptional answers; in Lagrange form the seminorm raises (`C106_sparse_dual_lagrange_fails`). [C106_group_dual_feasibility_partial] **C106** (partial) With the feasibility check `group_lasso_dual` in bound form returns its quadratic where `‖z[g]‖₂ ≤ bound * w_g` for all groups of positive weight and `inf` elsewhere, `z = x - offset`. Missing: the constraint `z[g] = 0` for the groups of weight 0, `C106_group_dual_feasibility_fails`."
  },
  {
   "property": "C107",
   "status": "partial",
   "theorems": [
    "Verif.Props.C107_solve_quadratic_partial",
    "Verif.Props.C107_solve_returns_partial",
    "Verif.Props.C107_solve_rate_partial",
    "Verif.Props.C107_nonsmooth",
    "Verif.Props.C107_nonsmooth_prox",
    "Verif.Props.C107_smooth_partial",
    "Verif.Props.C107_smooth_solves",
    "Verif.Props.C107_same_penalty",
    "Verif.Props.C107_separable_problem",
    "Verif.Props.C107_singleton",
    "Verif.Props.C107_fromatom",
    "Verif.Props.C107_signal_approximator",
    "Verif.Props.C107_proximal_optimum_fails"
   ],
   "note": "The property is false of the code as stated in these cases, proved with witnesses: [C107_proximal_optimum_fails] **C107** `composite.proximal_optimum(q)` is documented to return the proximal point and the value there; it never returns, whatever the atom and the quadratics: `q.objective(argmin)` is a pair, to which a number is added. Proved in part: [C107_solve_quadratic_partial] **C107** `solve(quadratic=q)` of a problem with any loss and any atom is the same run of the solver, with the same history, coefficients and value, as `solve()` of the problem whose loss has `q` added to its quadratic. (Partial: if the quadratic of the loss has a float other than 0 as its center, the two objectives differ by a constant, `C14_collapsed_fails`.) [C107_solve_returns_partial] **C107** `solve(quadratic=q)` answers for any loss with a Lipschitz gradient and any atom: from every start it returns coefficients where loss, penalty, quadratic of the loss and `q` sum to a finite number, together with that number. (Partial: float centers other than 0 are excluded.) [C107_solve_rate_partial] **C107** How good the answer of `solve(quadratic=q)` is: after `k` recorded values it misses the smallest value of the documented objective by at most `2 ‖x0 - u‖² / (t (k+1)²)`, `t = min(start_step, 1/(2 M alpha))`, for every minimiser `u`; and the squared distance to `u`, times half of the sum of the coefficients of `q` and of the quadratic of the loss, is at most the same. (Partial: float centers other than 0 are excluded.) [C107_smooth_partial] **C107** `simple_problem.smooth(loss)` is the problem of minimising the loss: `solve()` returns `c` with history `hist` exactly when the run of FISTA that `loss.solve()` makes, started from zero, does; and the objective is that of the loss. (Partial: a quadratic of the loss whose center is a float other than 0 shifts the recorded values, `C14_collapsed_fails`.)"
  },
  {
   "property": "C108",
   "status": "partial",
   "theorems": [
    "Verif.Props.C108_certificate",
    "Verif.Props.C108_returns",
    "Verif.Props.C108_rate",
    "Verif.Props.C108_constructor",
    "Verif.Props.C108_history",
    "Verif.Props.C108_curvature",
    "Verif.Props.C108_binary_partial",
    "Verif.Props.C108_linear_predictor",
    "Verif.Props.C108_binary_solves_partial",
    "Verif.Props.C108_saturated_offset_fails",
    "Verif.Props.C108_logistic_partial",
    "Verif.Props.C108_logistic_curvature",
    "Verif.Props.C108_logistic_solves_partial",
    "Verif.Props.C108_poisson",
    "Verif.Props.C108_poisson_solves"
   ],
   "note": "The property is false of the code as stated in these cases, proved with witnesses: [C108_saturated_offset_fails] **C108** `saturated_offset` is accepted and ignored: two regressions that differ only in it answer every call alike, so with one success at linear predictor 0 and saturated offset 1 the value is not the one at linear predictor `0 - 1`. Proved in part: [C108_binary_partial] **C108** Probit and complementary log-log regression are the textbook regressions where the linear predictors are at most 20 (probit) or 5 (complementary log-log) in absolute value: for every design, successes, trials, coefficient, offset, case weights and convex quadratic the constructor accepts, `smooth_objective` returns the weighted binomial negative log-likelihood at `X(β - offset)` and its gradient. Missing: larger predictors (`C72_gradient_fails`), and `saturated_offset`, which is ignored (`C108_saturated_offset_fails`). [C108_binary_solves_partial] **C108** Penalised or constrained probit and complementary log-log regression: there is a constant `M`, depending only on the data, such that with every atom that keeps the linear predictors within a third of the clipping bound, `solve` answers from every allowed start and misses the smallest value of the textbook objective by at most the rate for `M`. (Partial: as `C108_binary_partial`.) [C108_logistic_partial] **C108** Logistic regression is the textbook regression where the linear predictors are at most 100 in absolute value. Missing: larger predictors (`C29_logistic_fails`). [C108_logistic_solves_partial] **C108** Logistic regression with an atom that keeps the linear predictors within `100 / 3`: `solve` answers from every allowed start and misses the smallest value of the textbook objective by at most the rate for `M = coef m/4 ∑ᵢ wᵢ ‖xᵢ‖²`, `m` the largest number of trials. (Partial: as `C108_logistic_partial`.)"
  },
  {
   "property": "C109",
   "status": "partial",
   "theorems": [
    "Verif.Props.C109_curvature",
    "Verif.Props.C109_solves_partial",
    "Verif.Props.C109_baseline",
    "Verif.Props.C109_shift",
    "Verif.Props.C109_two_categories"
   ],
   "note": "Proved in part: [C109_solves_partial] **C109** Penalised or constrained multinomial regression, with or without baseline category: with every matrix atom that keeps the linear predictors within 50/3, `solve` answers from every allowed start and misses the smallest value of the exact penalised negative log likelihood by at most the rate for the Lipschitz constant of `C109_curvature`, or any larger positive `M`. Missing: atoms that allow larger predictors, where the loss is clipped and not convex (`C29_multinomial_fails`)."
  },
  {
   "property": "C110",
   "status": "partial",
   "theorems": [
    "Verif.Props.C110_factors_exist",
    "Verif.Props.C110_orthonormal",
    "Verif.Props.C110_never_exceeds",
    "Verif.Props.C110_monotone",
    "Verif.Props.C110_stationary",
    "Verif.Props.C110_leading_value",
    "Verif.Props.C110_converges",
    "Verif.Props.C110_answers",
    "Verif.Props.C110_more_values_than_rows_fails",
    "Verif.Props.C110_start_fails"
   ],
   "note": "The property is false of the code as stated in these cases, proved with witnesses: [C110_more_values_than_rows_fails] **C110** more singular values than rows cannot be asked for: the request is cut to the number of columns of `X` but not to the number of its rows, and the call raises `IndexError`. [C110_start_fails] **C110** the leading value can be missed for good: of `diag(2, 1)`, whose largest singular value is 2, a warm start at the second singular vector gives the value 1, for any factorisation routine, number of passes, tolerance below one and stopping rule."
  },
  {
   "property": "C111",
   "status": "proved",
   "theorems": [
    "Verif.Props.C111_sound",
    "Verif.Props.C111_complete",
    "Verif.Props.C111_progress",
    "Verif.Props.C111_repeat",
    "Verif.Props.C111_repeat_returns",
    "Verif.Props.C111_ridge"
   ],
   "note": ""
  },
  {
   "property": "C112",
   "status": "proved",
   "theorems": [
    "Verif.Props.C112_zero_entry",
    "Verif.Props.C112_zero_run",
    "Verif.Props.C112_null_space",
    "Verif.Props.C112_left_inverse",
    "Verif.Props.C112_fused_lasso",
    "Verif.Props.C112_repeated_knots"
   ],
   "note": ""
  },
  {
   "property": "C113",
   "status": "partial",
   "theorems": [
    "Verif.Props.C113_envelope",
    "Verif.Props.C113_constraint",
    "Verif.Props.C113_smoothing",
    "Verif.Props.C113_linear_partial",
    "Verif.Props.C113_sum",
    "Verif.Props.C113_loss",
    "Verif.Props.C113_solution",
    "Verif.Props.C113_rate"
   ],
   "note": "Proved in part: [C113_linear_partial] **C113** The same for a penalty of a linear image: for `cls.affine(D, α, lagrange=r)` (the fused LASSO term of the documentation is `l1norm.linear(D, lagrange=r)`), `smoothed(identity_quadratic(eps, 0, 0, 0))` stands for a convex function between `r h(D x + α) - gap` and `r h(D x + α)`, with the same gap (counting the rows of `D`), and its gradient is `K/eps`-Lipschitz if `‖D x - D y‖² ≤ K ‖x - y‖²`. Missing: transforms with an offset of their own, selectors that repeat a position."
  },
  {
   "property": "C114",
   "status": "partial",
   "theorems": [
    "Verif.Props.C114_residuals",
    "Verif.Props.C114_unique",
    "Verif.Props.C114_signal",
    "Verif.Props.C114_isotonic",
    "Verif.Props.C114_threshold",
    "Verif.Props.C114_container",
    "Verif.Props.C114_proximal_partial"
   ],
   "note": "Proved in part: [C114_proximal_partial] **C114** Denoising through the dual problem: `proximal(identity_quadratic(c, Y, 0, 0))` of the container, with an inner solver `fit` that reaches the dual optimum up to `δ`, returns a point whose squared distance to the solution of the nearly isotonic problem is at most `2 δ / c`; an exact inner solver gives the solution. Missing: a bound on `δ` for the inner FISTA run."
  },
  {
   "property": "C115",
   "status": "partial",
   "theorems": [
    "Verif.Props.C115_columns_partial",
    "Verif.Props.C115_raises",
    "Verif.Props.C115_todense_partial",
    "Verif.Props.C115_tensorize_partial",
    "Verif.Props.C115_scaler_fails",
    "Verif.Props.C115_stack_fails"
   ],
   "note": "The property is false of the code as stated in these cases, proved with witnesses: [C115_scaler_fails] **C115** fails for `scaler`: it multiplies the columns of a square matrix by the scalings instead of the rows, so that `todense(composition(scaler(s), D))` is `D` times the diagonal matrix, not the diagonal matrix times `D`; other matrices raise. [C115_stack_fails] **C115** fails for stacks: the docstring of `linear_map` allows a matrix, a `vstack` raises. Proved in part: [C115_columns_partial] **C115** `linear_map`, `affine_map` and `adjoint_map` of a transform built from matrices, diagonals, selectors, intercepts, centering and their sums, multiples, residuals, adjoints and compositions treat a matrix as a list of columns: column `c` of the result is the method applied to column `c`. Missing, because it fails: transforms with a `scaler` (`C115_scaler_fails`), and the classes that raise (`C115_raises`). [C115_todense_partial] **C115** `todense(T)` returns the matrix of `T`: multiplying by it is `linear_map`. Missing, because it fails: a `scaler`, the classes that raise, and `aslinear` of a transform that is not square, whose shapes are interchanged. [C115_tensorize_partial] **C115** `tensorize(T, q)` of such a transform: `linear_map` and `adjoint_map` act on the columns, `affine_map` adds the attribute `affine_offset` of `T` to each column of the linear part; it is `T.affine_map` of each column as far as that attribute is the constant of `T`. The class cannot be used on a transform without that attribute."
  },
  {
   "property": "C116",
   "status": "partial",
   "theorems": [
    "Verif.Props.C116_cone_member_partial",
    "Verif.Props.C116_penalty_and_constraint_partial",
    "Verif.Props.C116_cone_pair_partial",
    "Verif.Props.C116_cone_itself_partial",
    "Verif.Props.C116_isotonic_partial",
    "Verif.Props.C116_objective"
   ],
   "note": "Proved in part: [C116_cone_member_partial] **C116** `cls.affine(D, α, quadratic=q)` and `cls.linear(D)` of the cone classes (without the l2 epigraph and its polar, see C101) are members of containers to which the theorems about `proximal` apply: the dual pair represents the constraint `D x + α ∈ cone` plus `q(D x)`, its atom is convex with a correct proximal map, and the atom used when no dual problem is solved has the proximal map of `z + α ∈ cone` plus `q(z)`. [C116_penalty_and_constraint_partial] **C116** A penalty and a constraint together: `container(loss, cls1.affine(D1, α1, lagrange or bound), cls2.affine(D2, α2))` with a seminorm class and a cone class is built, and `proximal`, with an inner solver `fit` that reaches the dual optimum up to `δ`, returns a point within squared distance `2 δ / coef` of the one minimiser of the quadratic plus the penalty over the feasible set (`constrainedFn` is `⊤` elsewhere); an exact inner solver gives that minimiser. Missing: a bound on `δ` for the inner FISTA run; quadratic terms of the loss (C69). [C116_cone_pair_partial] **C116** A cone object itself, with any array offset and any linear and constant term, is a member of containers to which the theorems about `proximal` apply, with the identity as transform. [C116_cone_itself_partial] **C116** A cone object itself (`nonnegative(shape)`, ...), with any array offset and any linear and constant term, beside a loss: no dual problem is solved, and what `proximal` returns is the one minimiser of all quadratics (that of the argument, of the container and of the loss) plus the function of the cone. [C116_isotonic_partial] **C116** Isotonic regression as a program: `container(signal_approximator(Y, c), nonnegative.linear(D))` with `D` the first differences exists, and `proximal(identity_quadratic(c, Y, 0, 0))`, with an inner solver that reaches the dual optimum up to `δ`, returns a point within squared distance `2 δ / c` of the fit computed by the routine of pool adjacent violators of the same library; an exact inner solver gives exactly that fit. Missing: a bound on `δ` for the inner FISTA run (given in C117 without monotonicity restarts)."
  },
  {
   "property": "C117",
   "status": "partial",
   "theorems": [
    "Verif.Props.C117_accuracy_partial",
    "Verif.Props.C117_returns",
    "Verif.Props.C117_one_penalty_partial",
    "Verif.Props.C117_generalised_lasso_partial",
    "Verif.Props.C117_l2_partial",
    "Verif.Props.C117_sup_partial",
    "Verif.Props.C117_penalties_partial",
    "Verif.Props.C117_sparse_fused_partial",
    "Verif.Props.C117_isotonic_partial"
   ],
   "note": "Proved in part: [C117_accuracy_partial] **C117** (partial: containers and members without quadratic terms, as in C69; the monotonicity restarts of the solver switched off by `prox_control`; `dual_reference_lipschitz` a valid bound, which the default, `1.05` times the estimate of `power_L`, is not always: C27) Let `D` be the stacked operator of the penalties, with `‖D x‖² ≤ ρ ‖x‖²`. If `proximal(proxq, prox_control)` returns the vector `p` and the history of the inner solver has `m` entries, then for every solution `u*` of the dual problem the distance of `p` to the exact proximal point satisfies `coef (m + 1) ‖p - p*‖ ≤ 2 √ρ ‖u₀ - u*‖`, where `u₀` is the point the inner solver starts from. [C117_one_penalty_partial] **C117** (partial: no quadratic terms in the container and its loss, monotonicity restarts switched off, a valid `dual_reference_lipschitz`) a loss and one penalty `cls.affine(D, α, ...)` of a seminorm class, in penalty or bound form: `proximal` returns, and its distance to the exact proximal point is bounded as in `C117_accuracy_partial`, with no hypothesis about the solver. [C117_generalised_lasso_partial] **C117** (partial: no quadratic terms in the container and its loss, monotonicity restarts switched off, a valid `dual_reference_lipschitz`) The generalised lasso: `container(loss, l1norm.linear(D, lagrange=λ)).proximal(proxq, prox_control)` returns, and its distance to the minimiser `p*` of `q(β) + λ‖Dβ‖₁` satisfies `coef (m + 1) ‖p - p*‖ ≤ 2 λ √(ρ K)`, where `m` is the length of the history, `K` the number of rows of `D` and `ρ` the value of `dual_reference_lipschitz`; the bound is known before the call, up to `m`. [C117_l2_partial] **C117** (partial: as `C117_generalised_lasso_partial`) The euclidean norm of a transform, `container(loss, l2norm.linear(D, lagrange=λ))`: `coef (m + 1) ‖p - p*‖ ≤ 2 λ √ρ`, with `p*` the minimiser of `q(β) + λ‖Dβ‖₂`. [C117_sup_partial] **C117** (partial: as `C117_generalised_lasso_partial`) The largest entry of a transform, `container(loss, supnorm.linear(D, lagrange=λ))`: `coef (m + 1) ‖p - p*‖ ≤ 2 λ √ρ`, with `p*` the minimiser of `q(β) + λ max |Dβ|`. [C117_penalties_partial] **C117** (partial: as `C117_accuracy_partial`) Any number of penalties whose dual atoms are indicators of bounded closed sets, the squared norms of whose points are at most `R_i` (every norm penalty): `proximal` returns, and `coef (m + 1) ‖p - p*‖ ≤ 2 √(ρ Σ R_i)`. [C117_sparse_fused_partial] **C117** (partial: as `C117_generalised_lasso_partial`) The sparse fused lasso and its relatives, `container(loss, l1norm.linear(D₁, lagrange=λ₁), l1norm.linear(D₂, lagrange=λ₂))`: `proximal` returns, and its distance to the minimiser `p*` of `q(β) + λ₁‖D₁β‖₁ + λ₂‖D₂β‖₁` satisfies `coef (m + 1) ‖p - p*‖ ≤ 2 √(ρ (k₁ λ₁² + k₂ λ₂²))`, with `k_i` the number of rows of `D_i` and `ρ` a bound of the squared norm of the stacked transform. [C117_isotonic_partial] **C117** (partial: monotonicity restarts switched off) Isotonic regression as a program, with the solver of the library: `container(signal_approximator(Y, c), nonnegative.linear(D)).proximal(identity_quadratic(c, Y, 0, 0), prox_control)`, `D` the first differences and `dual_reference_lipschitz = ρ ≥ 4`, returns a vector `p`, and if `s` is the fit of the pool adjacent violators routine of the library and `m` the length of the history, `(m + 1)² ‖p - s‖² ≤ 4 ρ Σᵢ Sᵢ²`, where `Sᵢ` is the sum of the first residuals `Yⱼ - sⱼ`, `j ≤ i`. So the two routines agree in the limit, and the bound does not depend on `c`."
  }
 ]
}