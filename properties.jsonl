{"id": "C01", "title": "Choice probabilities form a distribution", "statement": "For a nested logit (or MNL) model evaluated by the numba kernel, whenever at least one alternative is available, every alternative's returned probability is non-negative and the probabilities of the alternatives sum to exactly 1.", "quantifier": "every nesting tree (any number of alternatives, nests and depth), every vector of finite utilities, every availability pattern with at least one available alternative, every strictly positive logsum parameter", "why_tests_cant": "the set of trees, utilities and logsum parameters is infinite; a unit test checks a handful of trees", "anchors": ["larch/numba/model.py:_numba_utility_to_loglike", "larch/numba/model.py:NumbaModel.probability", "larch/model/mnl.pyx:_mnl_probability_from_utility"]}
{"id": "C02", "title": "Unavailable alternatives never receive probability", "statement": "An alternative flagged unavailable has probability exactly 0, and (in dense idca data) an available one has strictly positive probability; its utility does not influence any other alternative's probability.", "quantifier": "every tree, utility vector and availability pattern", "why_tests_cant": "needs all availability patterns on all trees", "anchors": ["larch/numba/model.py:utility_from_data_ca", "larch/numba/model.py:_numba_utility_to_loglike"]}
{"id": "C03", "title": "Logsums are exact and overflow-shifted evaluation does not change them", "statement": "The logsum computed with the largest-term shift equals mu*log(sum over available children of exp(U/mu)), whichever child is used as the shift; adding a constant to every alternative's utility adds that constant to the root logsum and leaves all probabilities unchanged.", "quantifier": "every nest size, utility vector, positive mu, shift position", "why_tests_cant": "floating tests only sample; the identity is an unbounded sum", "anchors": ["larch/numba/model.py:_numba_utility_to_loglike", "larch/model/nl.pyx:_nl_utility_upstream_v2", "larch/model/mnl.pyx:_mnl_logsum_from_utility_MU"]}
{"id": "C04", "title": "Log likelihood is the weighted sum of choice times log probability", "statement": "The log likelihood accumulated edge by edge over the nesting tree equals weight * sum over alternatives of choice * log(probability of that alternative), when every chosen alternative is available.", "quantifier": "every tree, utility vector, availability and choice vector, weight", "why_tests_cant": "the edge-wise accumulation equals the textbook formula only by a telescoping argument over arbitrary trees", "anchors": ["larch/numba/model.py:_numba_utility_to_loglike", "larch/numba/cascading.py:cascade_sum"]}
{"id": "C05", "title": "The analytic gradient is the derivative of the log likelihood", "statement": "The gradient vector returned with the log likelihood equals the partial derivatives of the returned log likelihood with respect to every free parameter (utility parameters and logsum parameters).", "quantifier": "every tree, data set and parameter vector in the interior (positive logsum parameters)", "why_tests_cant": "finite-difference tests check a point, within tolerance; a sign or missing-term error on an unusual tree escapes", "anchors": ["larch/numba/model.py:_numba_utility_to_loglike", "larch/model/nl.pyx:_nl_d_utility_upstream_v2", "larch/model/mnl.pyx:_mnl_d_log_likelihood_from_d_utility"]}
{"id": "C06", "title": "BHHH matrices are symmetric positive semidefinite outer products", "statement": "The BHHH matrix is the sum over cases and chosen alternatives of weight*choice*g g^T where g is the gradient of log probability; it is symmetric and positive semidefinite for non-negative weights and choices.", "quantifier": "every gradient, choice vector, weight vector", "why_tests_cant": "matrix property over all real vectors", "anchors": ["larch/numba/model.py:_numba_utility_to_loglike", "larch/model/nl.pyx:_nl_d_loglike_from_d_probability", "larch/model/nl.pyx:d_loglike_from_d_probability"]}
{"id": "C07", "title": "Held-fast parameters have zero gradient", "statement": "The reported gradient entry of a parameter marked holdfast is zero, whatever role the parameter plays.", "quantifier": "every model structure, data and parameter vector", "why_tests_cant": "role combinations are unbounded", "anchors": ["larch/numba/model.py:utility_from_data_co", "larch/numba/model.py:utility_from_data_ca", "larch/numba/model.py:quantity_from_data_ca", "larch/numba/model.py:_numba_utility_to_loglike"]}
{"id": "C08", "title": "Computed utilities are the declared linear functions", "statement": "For an available alternative the utility is log-quantity plus the sum over utility_ca terms plus the sum over the utility_co terms declared for it, each term being scale*parameter*data (data 1 for a constant); order of terms is irrelevant and the utility gradient is the coefficient vector with held-fast entries zeroed.", "quantifier": "every list of terms, parameter vector, data row", "why_tests_cant": "unbounded lists and reals", "anchors": ["larch/numba/model.py:utility_from_data_co", "larch/numba/model.py:utility_from_data_ca", "larch/numba/model.py:quantity_from_data_ca"]}
{"id": "C09", "title": "Sparse (idce) and dense (idca) data give the same utilities", "statement": "Evaluating a case from sparse rows gives the same utilities as evaluating the dense array made from those rows with availability = presence.", "quantifier": "every case: any number of rows, any alternatives present", "why_tests_cant": "row layouts are unbounded; ordering assumptions are implicit in the code", "anchors": ["larch/numba/model.py:utility_from_data_ca", "larch/numba/model.py:quantity_from_data_ca", "larch/dataset/construct.py:_DatasetConstruct.from_idce"]}
{"id": "C10", "title": "Sparse-to-dense conversion puts each row in its own case and alternative", "statement": "ce_to_dense / ce_bool_to_dense place the value of each sparse row at [its case, its alternative] and zero elsewhere.", "quantifier": "every case-pointer array, alternative index array and data array", "why_tests_cant": "pointer layouts (including cases with no rows) are unbounded", "anchors": ["larch/numba/data_arrays.py:ce_to_dense", "larch/numba/data_arrays.py:ce_bool_to_dense", "larch/dataset/flow.py:case_ptr_to_indexes"]}
{"id": "C11", "title": "Zero-variance dissolving is lossless", "statement": "When dissolve_zero_variance reports success for a sparse variable, broadcasting the per-case output back over the sparse rows reproduces the input; when it reports failure some case has two different values.", "quantifier": "every case pointer and data array", "why_tests_cant": "unbounded arrays", "anchors": ["larch/dataset/flow.py:ce_dissolve_zero_variance"]}
{"id": "C12", "title": "Nesting tree stays rooted", "statement": "After any sequence of add_node/add_edge/remove_edge/remove_node/new_node calls, every node other than the root has at least one parent (so the implied-edge bookkeeping never orphans a node).", "quantifier": "every finite sequence of public graph edits", "why_tests_cant": "histories are unbounded", "anchors": ["larch/model/tree.py:NestingTree.add_edge", "larch/model/tree.py:NestingTree.remove_edge", "larch/model/tree.py:NestingTree.add_node", "larch/model/tree.py:NestingTree.remove_node"]}
{"id": "C13", "title": "Standard node order puts children before parents, each node once", "statement": "For an acyclic nesting graph the standard order lists every node exactly once, elemental alternatives first, every child before all of its parents.", "quantifier": "every acyclic graph", "why_tests_cant": "graphs are unbounded", "anchors": ["larch/model/tree.py:NestingTree.topological_sorted", "larch/model/tree.py:NestingTree.standard_sort", "larch/model/tree.py:NestingTree.elementals"]}
{"id": "C14", "title": "Cyclic nesting graphs are rejected", "statement": "Asking for the node order of a graph with a cycle raises an error instead of silently dropping nodes.", "quantifier": "every cyclic graph", "why_tests_cant": "cycles of any length and position", "anchors": ["larch/model/tree.py:NestingTree.topological_sorted"]}
{"id": "C15", "title": "Edge and node slot arrays agree", "statement": "The flat edge arrays list each edge exactly once, grouped by parent slot in increasing order; start/len of each node delimit exactly its outgoing edges.", "quantifier": "every graph and standard order", "why_tests_cant": "unbounded graphs; off-by-one in the backwards fill", "anchors": ["larch/model/tree.py:NestingTree.edge_slot_arrays", "larch/model/tree.py:NestingTree.node_slot_arrays"]}
{"id": "C16", "title": "Availability and choice cascade to nests", "statement": "After the cascade a nest is available iff some alternative below it is available, and (in a tree) a nest's choice equals the total choice of the alternatives below it; alternatives' own values are unchanged.", "quantifier": "every tree and every availability/choice vector", "why_tests_cant": "unbounded trees", "anchors": ["larch/numba/cascading.py:array_av_cascade", "larch/numba/cascading.py:array_ch_cascade", "larch/numba/cascading.py:cascade_or", "larch/numba/cascading.py:cascade_sum"]}
{"id": "C17", "title": "New nest codes never collide", "statement": "new_node without an explicit code returns a code not already in the graph, and an explicit code already in use raises ValueError.", "quantifier": "every graph", "why_tests_cant": "all existing code sets", "anchors": ["larch/model/tree.py:NestingTree.new_node"]}
{"id": "C18", "title": "set_values respects held-fast parameters and rejects wrong sizes", "statement": "set_values with an array, scalar or mapping never changes the value of a held-fast parameter unless respect_holdfast=False, changes exactly the requested free parameters, leaves the parameter list unchanged, and an array of the wrong length raises without changing anything.", "quantifier": "every frame, argument and history of calls", "why_tests_cant": "frames and call histories unbounded", "anchors": ["larch/model/parameter_frame.pyx:ParameterFrame.set_values"]}
{"id": "C19", "title": "Locked values stay locked", "statement": "After lock_value(name, v) any sequence of set_values calls (respecting holdfast) leaves the parameter equal to v, with min=max=v.", "quantifier": "every history after the lock", "why_tests_cant": "histories unbounded", "anchors": ["larch/model/parameter_frame.pyx:ParameterFrame.lock_value", "larch/model/parameter_frame.pyx:ParameterFrame.set_values"]}
{"id": "C20", "title": "Re-scanning a model never loses parameter settings", "statement": "mangle/unmangle (which adds newly mentioned parameter names) never removes a parameter or changes any column of an existing one, adds each new name exactly once with defaults, and is idempotent.", "quantifier": "every frame and set of names, any number of repetitions", "why_tests_cant": "name sets and histories unbounded", "anchors": ["larch/model/parameter_frame.pyx:ParameterFrame._ensure_names", "larch/model/parameter_frame.pyx:ParameterFrame.unmangle", "larch/numba/model.py:NumbaModel._ensure_names"]}
{"id": "C21", "title": "Best parameters track the best log likelihood seen", "statement": "The stored best log likelihood is the maximum of all values reported since it was last cleared, and the stored best parameter column holds the values in effect when that maximum was reached.", "quantifier": "every sequence of evaluations", "why_tests_cant": "histories unbounded", "anchors": ["larch/model/abstract_model.pyx:AbstractChoiceModel._check_if_best"]}
{"id": "C22", "title": "loglike_null is side-effect free and current", "statement": "loglike_null leaves the parameter values as they were, and returns the log likelihood of the current model at the null values.", "quantifier": "every model state and history of edits", "why_tests_cant": "histories unbounded; caching interacts with edits", "anchors": ["larch/model/abstract_model.pyx:AbstractChoiceModel.loglike_null"]}
{"id": "C23", "title": "Linear-function algebra preserves value", "statement": "Building utility expressions with +, -, *, / and unary minus on P(...), X(...) and linear functions gives an object whose evaluated value is the corresponding arithmetic on values.", "quantifier": "every expression tree, parameter assignment and data row", "why_tests_cant": "expression trees unbounded", "anchors": ["larch/model/linear.pyx:ParameterRef_C", "larch/model/linear.pyx:DataRef_C", "larch/model/linear.pyx:LinearComponent_C", "larch/model/linear.pyx:LinearFunction_C"]}
{"id": "C24", "title": "Parameter-math printing is faithful", "statement": "The repr of a parameter arithmetic expression, read back with Python precedence, has the same value as the expression.", "quantifier": "every expression tree and parameter assignment", "why_tests_cant": "expression trees unbounded", "anchors": ["larch/model/linear_math.py:_parenthize_repr", "larch/model/linear_math.py:ParameterOp"]}
{"id": "C25", "title": "Removing data or parameter terms removes exactly those terms", "statement": "remove_data(x) (remove_param(p)) leaves exactly the components not using x (p), in order.", "quantifier": "every linear function", "why_tests_cant": "index-deletion loops over arbitrary lists", "anchors": ["larch/model/linear.pyx:LinearFunction_C.remove_data", "larch/model/linear.pyx:LinearFunction_C.remove_param"]}
{"id": "C26", "title": "Constraint functions are non-negative exactly when the constraint holds", "statement": "RatioBound, OrderingBound and FixedBound `fun(x)` is >= 0 iff the parameter values satisfy the stated constraint.", "quantifier": "every parameter vector and bound", "why_tests_cant": "real-valued domain", "anchors": ["larch/model/constraints.py:RatioBound", "larch/model/constraints.py:OrderingBound", "larch/model/constraints.py:FixedBound"]}
{"id": "C27", "title": "Constraint Jacobians are the derivatives of the constraint functions", "statement": "jac(x) equals the gradient of fun(x) wherever fun is differentiable.", "quantifier": "every parameter vector and bound", "why_tests_cant": "real-valued domain", "anchors": ["larch/model/constraints.py:RatioBound.jac", "larch/model/constraints.py:OrderingBound.jac", "larch/model/constraints.py:FixedBound.jac"]}
{"id": "C28", "title": "Constraint lists hold no duplicates", "statement": "A ParametricConstraintList built by the constructor and edited with insert/append/setitem never contains two equal constraints (unless duplicates are allowed).", "quantifier": "every construction and edit history", "why_tests_cant": "histories unbounded", "anchors": ["larch/model/constraints.py:ParametricConstraintList"]}
{"id": "C29", "title": "BHHH search never ends worse than it started", "statement": "Each accepted step of the BHHH line search strictly improves the objective; if no improving step is found the parameters are restored to the values before the step; the search performs a bounded number of objective evaluations.", "quantifier": "every objective function (any function of the parameter vector) and every starting point", "why_tests_cant": "objective functions are unbounded", "anchors": ["larch/model/abstract_model.pyx:AbstractChoiceModel.simple_step_bhhh", "larch/model/abstract_model.pyx:AbstractChoiceModel.simple_fit_bhhh", "larch/numba/optimization.py:fit_bhhh"]}
{"id": "C30", "title": "Estimation leaves penalty settings as found", "statement": "maximize_loglike restores constraint_intensity and constraint_sharpness on every exit, including exceptions raised anywhere in the optimizer.", "quantifier": "every outcome of the inner optimizer", "why_tests_cant": "fault points unbounded", "anchors": ["larch/model/optimization.py:maximize_loglike"]}
{"id": "C31", "title": "Case slicing visits the right cases and sizes its storage exactly", "statement": "Evaluating with start/stop/step touches exactly the cases start, start+step, ... < stop; the number of local storage rows equals the number of visited cases and the row index of a case is its rank, so no two cases share a row and none is out of range.", "quantifier": "every start, stop, step, n", "why_tests_cant": "unbounded integers; off-by-one in ceil division", "anchors": ["larch/model/nl.pyx:nl_d_log_likelihood_from_dataframes_all_rows", "larch/model/mnl.pyx:mnl_d_log_likelihood_from_dataframes_all_rows"]}
{"id": "C32", "title": "Cross-validation folds partition the cases", "statement": "For k folds the keep_only sets are disjoint and cover all cases, leave_out=i is the complement of keep_only=i, and the log likelihoods of the folds add up to the full log likelihood.", "quantifier": "every number of cases and folds", "why_tests_cant": "unbounded integers", "anchors": ["larch/model/abstract_model.pyx:AbstractChoiceModel.cross_validate", "larch/model/nl.pyx:nl_d_log_likelihood_from_dataframes_all_rows", "larch/numba/model.py:NumbaModel.loglike"]}
{"id": "C33", "title": "Systematic alternative codes are decodable", "statement": "new_alternative_codes gives distinct codes to distinct (group..., counter) combinations within a case and the masks recover each group index and the counter from the code.", "quantifier": "every number of groups, group sizes, padding and counters", "why_tests_cant": "bit-packing over unbounded sizes", "anchors": ["larch/model/systematic_alternatives.py:new_alternative_codes", "larch/model/systematic_alternatives.py:SystematicAlternatives.alternative_name_from_code"]}
{"id": "C34", "title": "Bit masks are disjoint and contiguous", "statement": "define_masks gives masks of the requested widths that do not overlap and together fill all the low bits, first field most significant.", "quantifier": "every list of widths", "why_tests_cant": "unbounded lists", "anchors": ["larch/util/bitmasking.py:define_masks"]}
{"id": "C35", "title": "Piecewise-linear pieces add up", "statement": "For increasing breakpoints the pieces of piecewise_expansion sum to the original value; each middle piece lies between 0 and its width; a piecewise function with all slopes equal is linear.", "quantifier": "every x and every increasing list of breaks", "why_tests_cant": "real x and arbitrary break lists", "anchors": ["larch/util/data_expansion.py:piece", "larch/util/data_expansion.py:piecewise_expansion"]}
{"id": "C36", "title": "hard_sigmoid is a bounded monotone ramp", "statement": "hard_sigmoid is in [0,1], equals 0 at (and beyond) zero_bound and 1 at (and beyond) one_bound, and is monotone in x in the direction from zero_bound to one_bound.", "quantifier": "every x, zero_bound, one_bound", "why_tests_cant": "reals", "anchors": ["larch/util/data_expansion.py:hard_sigmoid"]}
{"id": "C37", "title": "periodize assigns the last matching interval", "statement": "Each value gets the label of the last interval containing it (with the chosen open/closed ends; missing bounds are infinite), or the default when none contains it.", "quantifier": "every mapping and value", "why_tests_cant": "unbounded mappings", "anchors": ["larch/util/data_manipulation.py:periodize"]}
{"id": "C38", "title": "label_to_index inverts the label array", "statement": "For unique labels (sorted or not) and values that occur in the labels, label_to_index returns the position of the value in the label array; duplicates raise.", "quantifier": "every label array and value", "why_tests_cant": "unbounded arrays", "anchors": ["larch/util/arraytools.py:label_to_index", "larch/omx.py:OMX.lookup_to_index"]}
{"id": "C39", "title": "Latent class probabilities are a mixture distribution", "statement": "LatentClassModel.probability is the class-probability-weighted average of the class models' probabilities, hence non-negative and summing to 1; its derivative follows the product rule.", "quantifier": "every number of classes and alternatives", "why_tests_cant": "unbounded sums", "anchors": ["larch/model/latentclass.py:LatentClassModel.probability", "larch/model/latentclass.py:LatentClassModel.d_probability"]}
{"id": "C40", "title": "A model group is the sum of its members", "statement": "ModelGroup log likelihood, gradient, number of cases and total weight are the sums of the members'; parameters of the same name share one value after set_values.", "quantifier": "every list of member models", "why_tests_cant": "unbounded lists", "anchors": ["larch/model/model_group.py:ModelGroup"]}
{"id": "C41", "title": "Ranks and top-k accuracy", "statement": "probability_to_rank gives every row a permutation of 1..n where a higher probability gets a smaller rank; top_k_accuracy is in [0,1], non-decreasing in k and 1 at k=n.", "quantifier": "every probability row / choice array", "why_tests_cant": "unbounded arrays", "anchors": ["larch/scoring.py:probability_to_rank", "larch/scoring.py:top_k_accuracy"]}
{"id": "C42", "title": "Mutations of watched attributes notify the model", "statement": "Every mutating operation on a touch-notifying container (item assignment, attribute assignment, deletion, list/dict methods) calls the owner's mangle callback.", "quantifier": "every sequence of mutations", "why_tests_cant": "histories unbounded", "anchors": ["larch/util/touch_notifier.py:TouchNotify"]}
{"id": "C43", "title": "Choice and availability specifications are mutually exclusive", "statement": "At any time at most one way of defining the choice (choice_ca_var, choice_co_code, choice_co_vars, choice_any) and at most one of defining availability is in effect: the last one assigned.", "quantifier": "every sequence of assignments", "why_tests_cant": "histories unbounded", "anchors": ["larch/model/controller.pyx:Model5c.choice_ca_var", "larch/model/controller.pyx:Model5c.availability_co_vars"]}
{"id": "C44", "title": "Soft bound penalties", "statement": "The bounds penalty is never positive in the objective's favour: it is <= 0 for every parameter inside or outside the bounds, decreasing as the violation grows, and its reported derivative matches the penalty function.", "quantifier": "every parameter vector, bounds, intensity and sharpness", "why_tests_cant": "reals", "anchors": ["larch/numba/model.py:softplus", "larch/numba/model.py:d_softplus", "larch/numba/model.py:bounds_penalty"]}
{"id": "C45", "title": "One-hot encoding round-trips", "statement": "categorical_expansion followed by categorical_compression recovers the category of every row; each expanded row has exactly one 1.", "quantifier": "every categorical array", "why_tests_cant": "unbounded arrays", "anchors": ["larch/util/data_expansion.py:to_categorical", "larch/util/data_expansion.py:categorical_compression"]}
{"id": "C46", "title": "Covariance has zero rows for held-fast parameters", "statement": "The parameter covariance matrix has zero rows and columns for held-fast parameters, and its free block is the inverse of the free block of the information matrix; with an active linear constraint the variance along the constraint normal is zero and no variance increases.", "quantifier": "every information matrix, holdfast pattern and constraint normal", "why_tests_cant": "matrices of any size", "anchors": ["larch/model/abstract_model.pyx:AbstractChoiceModel._free_slots_inverse_matrix", "larch/model/abstract_model.pyx:AbstractChoiceModel.calculate_parameter_covariance"]}
{"id": "C47", "title": "Casewise log likelihoods add up to the total", "statement": "The casewise log likelihood array returned for an evaluation adds up to the returned log likelihood.", "quantifier": "every data set, weight normalization, case slice and thread schedule", "why_tests_cant": "all data, all schedules; the discrepancy only shows when weights were normalized", "anchors": ["larch/model/mnl.pyx:mnl_d_log_likelihood_from_dataframes_all_rows", "larch/model/nl.pyx:nl_d_log_likelihood_from_dataframes_all_rows", "larch/numba/model.py:NumbaModel.loglike_casewise"]}
{"id": "C48", "title": "Loading a sparse data frame keeps each row with its case", "statement": "The dataset built from an idce data frame assigns every row to the case whose label the row carries, with one case per label.", "quantifier": "every two-level index (any row order, any set of levels)", "why_tests_cant": "all row orders and all filtered frames", "anchors": ["larch/dataset/construct.py:_DatasetConstruct.from_idce"]}
{"id": "C49", "title": "Breakpoints of a piecewise function can be read back", "statement": "infer_breaks applied to a function built by piecewise_linear_function returns the breakpoints it was built with; when infer_breaks succeeds on any list of legs, those legs are exactly the piecewise legs of the returned breakpoints.", "quantifier": "every breakpoint list and every list of legs", "why_tests_cant": "lists of any length", "anchors": ["larch/util/data_expansion.py:piecewise_linear_data_names", "larch/util/data_expansion.py:infer_breaks"]}
{"id": "C50", "title": "ratio_min divides by the minimum of the row's own case", "statement": "Every row of ratio_min times the minimum over the rows of its case is the original value (unchanged when the minimum is zero); ratios of positive data are at least one.", "quantifier": "every data column and case index", "why_tests_cant": "data of any size", "anchors": ["larch/util/data_expansion.py:ratio_min"]}
{"id": "C51", "title": "labels_to_unique_ids identifies labels", "statement": "The unique labels are returned in increasing order and every id points at its own label, counting from the lowest id.", "quantifier": "every label array and lowest id", "why_tests_cant": "arrays of any size", "anchors": ["larch/util/arraytools.py:labels_to_unique_ids"]}
{"id": "C52", "title": "Float to integer conversion is lossless", "statement": "When convert_float_to_int_if_lossless converts an array, every converted number equals the original; arrays with a fractional value are returned unchanged.", "quantifier": "every float array", "why_tests_cant": "all arrays; fails for whole numbers beyond the 32-bit range", "anchors": ["larch/util/arraytools.py:convert_float_to_int_if_lossless"]}
{"id": "C53", "title": "set_value touches only the named parameter", "statement": "set_value(name, value=…, minimum=…, …) on an existing parameter changes only the given settings of that parameter; all other parameters and settings stay as they were, and an unknown name is rejected without side effects.", "quantifier": "every frame, name and combination of keyword arguments", "why_tests_cant": "ranges over all frames and keyword combinations, including interactions of the settings", "anchors": ["larch/model/parameter_frame.pyx:ParameterFrame.set_value", "larch/model/parameter_frame.pyx:ParameterFrame.lock_value"]}
{"id": "C54", "title": "Evaluations use the utility functions as last written", "statement": "After any sequence of statements that build or edit utility_ca and utility_co (assignment, in-place list operations, +=, deletion, removal of terms) on one or more models, interleaved with evaluations, an evaluation of a model uses exactly the functions those statements describe: no edit is missed and none leaks to another alternative or model.", "quantifier": "every sequence of statements over any number of models", "why_tests_cant": "histories and object sharing are unbounded", "anchors": ["larch/model/linear.pyx:LinearFunction_C", "larch/model/linear.pyx:DictOfLinearFunction_C", "larch/model/parameter_frame.pyx:ParameterFrame.mangle"]}
{"id": "C55", "title": "Node orders and slots follow every edit of the nesting tree", "statement": "After any history of edits and reads of a nesting tree, reading its node orders and predecessor/successor slots gives what the current graph determines, never a stored result of an earlier graph, and every completed edit tells the owning model to rebuild.", "quantifier": "every finite history of edits and reads, including calls that raise", "why_tests_cant": "histories are unbounded; caching bugs show only after particular interleavings", "anchors": ["larch/model/tree.py:NestingTree._clear_caches", "larch/model/tree.py:NestingTree.suggest_elemental_order", "larch/util/lazy.py:lazy"]}
{"id": "C56", "title": "Each alternative's data are used for that alternative", "statement": "Whatever the order in which the data list the alternatives, the nest membership, probabilities and labels of results that the model attaches to an alternative code are computed from that alternative's own data.", "quantifier": "every order of alternative codes in the data and every nesting tree over them", "why_tests_cant": "all permutations of all code sets", "anchors": ["larch/model/tree.py:NestingTree.elementals", "larch/model/controller.pyx:AbstractChoiceModel.initialize_graph", "larch/numba/model.py:NumbaModel._rebuild_utility_arrays", "larch/numba/data_arrays.py"]}
{"id": "C57", "title": "A model uses the nesting tree assigned to it", "statement": "After model.graph = tree the model's tree has the same nodes, edges, attributes, root and suggested alternative order as the assigned one.", "quantifier": "every nesting tree", "why_tests_cant": "all trees and root codes", "anchors": ["larch/model/tree.py:NestingTree.__set__", "larch/numba/model.py:NumbaModel.graph", "larch/numba/model.py:NumbaModel._scan_logsums_ensure_names"]}
{"id": "C58", "title": "Changing the root code keeps the nesting structure", "statement": "Setting root_id of a tree to another code leaves every nest with the same members and makes the children of the old root the children of the new one.", "quantifier": "every tree and every new root code", "why_tests_cant": "all trees and codes", "anchors": ["larch/model/tree.py:NestingTree.root_id"]}
{"id": "C59", "title": "Only constraints that are active are reported as binding", "statement": "When a constraint is treated as binding (in the covariance calculation, or by is_binding), the parameter values are within the stated tolerance of the limit the constraint expresses.", "quantifier": "every constraint, tolerance and parameter vector", "why_tests_cant": "real-valued domain", "anchors": ["larch/model/constraints.py:ParametricConstraint.is_binding", "larch/model/abstract_model.pyx:calculate_parameter_covariance", "larch/model/constraints.py:RatioBound.fun"]}
{"id": "C60", "title": "constraint_violation reports exactly the violations", "statement": "Model.constraint_violation(on_violation='return') returns an empty message iff every parameter is within its bounds and every constraint function is non-negative.", "quantifier": "every parameter table and constraint list", "why_tests_cant": "real-valued domain with infinities", "anchors": ["larch/numba/model.py:NumbaModel.constraint_violation"]}
{"id": "C61", "title": "Constraints refer to the parameters they name", "statement": "At all times, every constraint in a model's list acts on the entries of the parameter vector that belong to the parameters named in it.", "quantifier": "every history of statements on any number of models", "why_tests_cant": "histories unbounded", "anchors": ["larch/model/constraints.py:ParametricConstraintList", "larch/model/constraints.py:RatioBound.link_model", "larch/model/parameter_frame.pyx:ParameterFrame"]}
{"id": "C62", "title": "model.constraints behaves as a list", "statement": "append, insert, item assignment, del, += and reverse on model.constraints have the effect they have on a Python list, except that equal constraints are not added twice.", "quantifier": "every list and every operation", "why_tests_cant": "unbounded lists and histories", "anchors": ["larch/model/constraints.py:ParametricConstraintList"]}
{"id": "C63", "title": "Penalised log likelihood and gradient agree", "statement": "With soft penalties switched on, d_loglike is the gradient of loglike, and loglike is additive over blocks of cases.", "quantifier": "every number of cases, every penalty and every case likelihood", "why_tests_cant": "reals, unbounded case lists", "anchors": ["larch/numba/model.py:NumbaModel._loglike_runner", "larch/numba/model.py:NumbaModel.constraint_penalty"]}
{"id": "C64", "title": "Every kind of constraint can be used in a model", "statement": "A model whose constraint list holds any mixture of RatioBound, OrderingBound and FixedBound constraints can be prepared for computation.", "quantifier": "every list of constraints", "why_tests_cant": "all lists", "anchors": ["larch/numba/model.py:NumbaModel.unmangle", "larch/model/constraints.py:FixedBound"]}
{"id": "C65", "title": "Evaluations use the data specified now", "statement": "An evaluation uses the choice, availability and weight data that the model's attributes specify at that moment, whatever was assigned, edited or evaluated before.", "quantifier": "every sequence of assignments, deletions and evaluations", "why_tests_cant": "unbounded histories", "anchors": ["larch/model/controller.pyx:Model5c.choice_co_vars", "larch/model/controller.pyx:Model5c.weight_co_var", "larch/numba/model.py:NumbaModel.reflow_data_arrays", "larch/numba/model.py:NumbaModel.mangle"]}
{"id": "C66", "title": "Prepared data flows are reused only for the same definition", "statement": "The values loaded for a model are those of the expressions requested now; a flow prepared earlier is reused only if it was prepared for the same names and expressions.", "quantifier": "all pairs of earlier and present definitions", "why_tests_cant": "all strings", "anchors": ["larch/numba/data_arrays.py:flownamer", "larch/numba/data_arrays.py:_prep_co", "larch/numba/data_arrays.py:_prep_ca"]}
{"id": "C67", "title": "Returned arrays do not change", "statement": "An array returned by probability, utility or logsums shows the values for the parameters it was computed with, whatever is called on the model later.", "quantifier": "every sequence of earlier and later calls", "why_tests_cant": "unbounded histories, aliasing", "anchors": ["larch/numba/model.py:NumbaModel._loglike_runner", "larch/numba/model.py:NumbaModel.probability", "larch/numba/model.py:NumbaModel.logsums"]}
{"id": "C68", "title": "After estimation the model holds the reported estimates", "statement": "When maximize_loglike returns a result, the model's parameter values are the values reported in the result.", "quantifier": "every objective, every method and every sequence of trial points", "why_tests_cant": "optimizers and objectives are unbounded", "anchors": ["larch/model/optimization.py:maximize_loglike"]}
{"id": "C69", "title": "Choice of the optimization method", "statement": "maximize_loglike uses the method given; by default SLSQP if there are constraints or finite bounds, otherwise BHHH; a failing BHHH search is followed by the second method, whose report is returned; any other error is raised; a result is returned only if some method produced one.", "quantifier": "every combination of arguments, bounds and optimizer outcomes", "why_tests_cant": "all parameter frames and outcomes", "anchors": ["larch/model/optimization.py:maximize_loglike"]}
{"id": "C70", "title": "BHHH matrix of a latent class model", "statement": "loglike2_bhhh of a LatentClassModel returns, as bhhh, the weighted sum over cases and chosen alternatives of the outer product of the score (derivative of the log of the chosen probability) with itself.", "quantifier": "every number of cases, alternatives, parameters; all probabilities, choices and weights", "why_tests_cant": "the matrix only feeds standard errors, a wrong constant factor changes no fitted value; must hold for every data set", "anchors": ["larch/model/nl.pyx:d_loglike_from_d_probability", "larch/model/nl.pyx:_nl_d_loglike_from_d_probability", "larch/model/latentclass.py:LatentClassModel.loglike2_bhhh"]}
{"id": "C71", "title": "A latent class model and its constituents share one parameter frame", "statement": "All constituents of a LatentClassModel read the parameter values set on it: each parameter occurs once, a value set on the latent class model or passed to loglike(x) is seen by the membership model and every class, also after a constituent's utility was changed.", "quantifier": "every set of constituents and every history of changes", "why_tests_cant": "depends on object identity after arbitrary histories", "anchors": ["larch/model/latentclass.py:sync_frames", "larch/model/latentclass.py:LatentClassModel.unmangle", "larch/model/parameter_frame.pyx:ParameterFrame.set_frame"]}
{"id": "C72", "title": "Compiled multinomial logit engine computes the logit model", "statement": "With the compiled engine, a multinomial logit model's probability of every offered alternative is exp(V)/sum of exp(V) over the offered alternatives (0 for the others), the case log likelihood is the weighted sum of choice times log probability, the gradient is its derivative with respect to every free parameter, the BHHH matrix the weighted sum of score outer products, and held-fast parameters have zero gradient; for dense and sparse (ce) data alike and regardless of the size of the utilities.", "quantifier": "every utility specification, parameter vector, number of alternatives, availability pattern and data", "why_tests_cant": "analytic identities over all real parameters and data; includes the internal overflow guard, reached only by extreme utilities", "anchors": ["larch/dataframes.pyx:_compute_d_utility_onecase", "larch/model/mnl.pyx:_mnl_probability_from_utility", "larch/model/mnl.pyx:_mnl_d_log_likelihood_from_d_utility", "larch/model/mnl.pyx:mnl_d_log_likelihood_from_dataframes_all_rows"]}
{"id": "C73", "title": "Compiled engine reports the declared utilities and logsums", "statement": "utility() and logsums() of a multinomial logit model on the compiled engine return the declared utility of every offered alternative (-inf for others) and the log of the sum of exponentiated declared utilities.", "quantifier": "every specification, parameter vector and data", "why_tests_cant": "fails only when a utility exceeds 500", "anchors": ["larch/dataframes.pyx:_compute_utility_onecase", "larch/model/mnl.pyx:_mnl_logsum_from_utility", "larch/model/mnl.pyx:_mnl_logsum_from_utility_MU", "larch/model/controller.pyx:logsums"]}
{"id": "C74", "title": "Compiled engine computes network (cross-nested) logit probabilities", "statement": "For every acyclic nesting network (nodes may have several parents, shared equally), the compiled engine's probabilities of alternatives and nests are those of the network GEV model at the declared utilities; alternatives' probabilities are nonnegative, add up to 1 when something is offered and are 0 for alternatives not offered; the log likelihood is the weighted sum of choice times log probability; logsums() is the value of the root.", "quantifier": "every acyclic network, utility specification, positive logsum parameters, dense or sparse data", "why_tests_cant": "ranges over all graphs, parameter vectors and data", "anchors": ["larch/model/nl.pyx:_nl_utility_upstream_v2", "larch/model/nl.pyx:_nl_conditional_logprobability_from_utility", "larch/model/nl.pyx:_nl_total_probability_from_conditional_logprobability", "larch/model/tree.py:_get_simple_mu_and_alpha", "larch/model/controller.pyx:logsums"]}
{"id": "C75", "title": "Compiled nested/network logit gradient is the derivative", "statement": "d_loglike, BHHH and d_probability of the compiled engine for nested and network logit models are built from the partial derivatives of the log likelihood and probabilities it reports; entries of held-fast parameters are zero.", "quantifier": "every acyclic network, specification, parameter vector, data, free parameter", "why_tests_cant": "derivative identities for all models and parameter values", "anchors": ["larch/model/nl.pyx:_nl_d_utility_upstream_v2", "larch/model/nl.pyx:_nl_d_probability_from_d_utility", "larch/model/nl.pyx:_nl_d_loglike_from_d_probability"]}
{"id": "C76", "title": "The two engines agree", "statement": "For the same nested logit model, parameters and data the numba and the compiled engine report the same probabilities, log likelihood, gradient and BHHH matrix.", "quantifier": "every model, parameter vector and dense case", "why_tests_cant": "equivalence of two programs on all inputs", "anchors": ["larch/numba/model.py:_numba_master", "larch/model/nl.pyx:nl_d_log_likelihood_from_dataframes_all_rows"]}
{"id": "C77", "title": "Weight scaling does not change results", "statement": "Calling scale_weights, autoscale_weights and unscale_weights on a DataFrames in any order leaves the weight with which every observed choice counts unchanged, so that the log likelihood, gradient and BHHH (times the normalization) stay the same; autoscale_weights makes the average weight one; unscale_weights restores the original weights; total_weight is unchanged.", "quantifier": "every data set (with or without weights, with weights embedded in choices), every sequence of calls, including ones that raise", "why_tests_cant": "ranges over all data and all histories of calls", "anchors": ["larch/dataframes.pyx:scale_weights", "larch/dataframes.pyx:autoscale_weights", "larch/dataframes.pyx:unscale_weights", "larch/dataframes.pyx:total_weight"]}
{"id": "C78", "title": "Splitting data is a partition", "statement": "DataFrames.split puts every case into exactly one part, with all its rows (attributes, alternatives, choices, availability, weight), in parts whose sizes differ from the requested shares by less than one case; parts count their choices with the same weights as the whole; parts can be split again.", "quantifier": "every container, every list of relative sizes, every shuffle", "why_tests_cant": "ranges over all data, sizes and random orders", "anchors": ["larch/dataframes.pyx:split", "larch/util/multiindex.py:remove_unused_level", "larch/dataframes.pyx:DataFrames.__init__"]}
{"id": "C79", "title": "Arrays of a DataFrames are aligned", "statement": "In a DataFrames built from frames, position i of every array refers to the same case and position a of every array to the same alternative code: attributes of cases, choices, availability, weights and (in idca or idce format) the rows of alternatives; availability derived from idce data says exactly which rows exist.", "quantifier": "every set of frames in every order of rows, complete or incomplete", "why_tests_cant": "ranges over all data sets and orders", "anchors": ["larch/dataframes.pyx:DataFrames.__init__", "larch/dataframes.pyx:data_ce", "larch/dataframes.pyx:data_wt", "larch/dataframes.pyx:get_dataframe_format"]}
{"id": "C80", "title": "Conversion between tables and idce rows", "statement": "data_ch_as_ce, data_av_as_ce, data_wt_as_ce and data_co_as_ce give each row of the idce data the value of its case and alternative; choices converted this way and given to a new DataFrames as ch_as_ce come back unchanged.", "quantifier": "every idce (and idca) data set and every table", "why_tests_cant": "round trip over all data", "anchors": ["larch/dataframes.pyx:data_ch_as_ce", "larch/dataframes.pyx:data_av_as_ce", "larch/dataframes.pyx:data_wt_as_ce", "larch/dataframes.pyx:data_co_as_ce", "larch/dataframes.pyx:DataFrames.__init__"]}
{"id": "C82", "title": "Availability and choices roll up the nesting structure correctly", "statement": "data_av_cascade(graph) marks a nest available for a case exactly when some available alternative lies below it, at any depth and also in networks; data_ch_cascade(graph) leaves the alternatives' choices alone, gives each nest the sum of its children, and in a nesting tree gives each nest the total of the choices of the alternatives below it, so that the root gets the case's total.", "quantifier": "all valid acyclic nesting graphs of any size and depth, all rows of availability and choices", "why_tests_cant": "The loop updates columns in place in the standard order; correctness depends on the order being bottom-up for every graph, not only the few shapes tests use.", "anchors": ["larch/dataframes.pyx:data_av_cascade", "larch/dataframes.pyx:data_ch_cascade", "larch/model/tree.py:standard_sort"]}
{"id": "C81", "title": "The data doctor reports exactly the problems and repairs only them", "statement": "doctor() without repairs changes nothing and its report lists exactly the alternatives with chosen-but-unavailable and chosen-but-zero-quantity cases (right counts, first examples), the cases with nothing chosen but positive weight, and NaN. With repairs, only offending cells change (choices only to zero, availability only to available, weights and NaN only to zero), also if it raises; afterwards the repaired problems are gone, a second visit finds nothing, and every case with positive weight has a chosen alternative that is available and has a quantity.", "quantifier": "all data sets of any size (with NaN), all repair settings, all numbers of examples", "why_tests_cant": "Repairs interact: one repair can create the problem an earlier check looked for; only a proof over all data and all settings shows that nothing else is touched and nothing is left.", "anchors": ["larch/troubleshooting.py:doctor", "larch/troubleshooting.py:chosen_but_not_available", "larch/troubleshooting.py:chosen_but_zero_quantity", "larch/troubleshooting.py:nothing_chosen_but_nonzero_weight", "larch/troubleshooting.py:nan_weight", "larch/troubleshooting.py:nan_data_co", "larch/dataframes.pyx:get_zero_quantity_ca"]}
{"id": "C83", "title": "Standardizing data gives mean zero and unit variance without changing the model", "statement": "DataFrames.standardize() moves and scales every variable so that over the available alternatives its mean is 0 and its standard deviation 1 (variables with the extremes 0/1 are left alone), for idco, idca and idce data; a second call changes nothing; the utilities of a standardized data set under suitably rescaled parameters differ from the original ones by one constant only, so all choice probabilities are reproducible, and the same parameters serve for other data standardized same_as the first.", "quantifier": "all data tables of any size, all availability patterns, all parameters", "why_tests_cant": "The statement is about sums over arbitrarily many values and about all parameter vectors; the masks are aligned by numpy's shape rules, which happen to work for some shapes only.", "anchors": ["larch/dataframes.pyx:standardize", "larch/dataframes.pyx:StandardScalerExcludeUnitRange"]}
{"id": "C84", "title": "A dataset built from a data frame holds the frame's data", "statement": "from_idca(df, crack, altnames, avail, fill_missing): for every row of the frame and every column the dataset holds the value of that row under the row's case and alternative; the availability variable is 1 exactly for the pairs that have a row and 0 for the others; fill_missing (a scalar, or a mapping by variable or type) only changes cells of pairs without a row; names given for the alternatives are the names the dataset reports; the caller's data frame is not changed; repeated pairs are rejected. query_cases keeps all data of the selected cases and only them.", "quantifier": "all data frames of any size, with any labels, gaps and NaN; all options", "why_tests_cant": "The statement ranges over all tables, all gap patterns and all combinations of options, whose steps (densify, dissolve constant variables, restore types, name, mark availability, fill) overwrite each other's results.", "anchors": ["larch/dataset/construct.py:from_idca", "larch/dataset/flow.py:dissolve_zero_variance", "larch/dataset/flow.py:set_altnames", "larch/dataset/flow.py:alts_mapping", "larch/dataset/flow.py:query_cases", "larch/dataset/patch.py:set_dtypes"]}
{"id": "C85", "title": "A model is given the data it specifies", "statement": "The data a model asks for are exactly the variables its utility and quantity functions use (each once), plus its choices, availability and weights as specified, choices by one specification only, in a fixed precedence. When the data are loaded, every requested column holds the values of its own expression, and for every alternative the choices and the availability are those of that alternative's own expression (or code), whatever the order of expressions and codes and even if expressions are repeated; a name that does not exist is an error; both engines load the same arrays.", "quantifier": "all specifications, all data containers with any number of cases, alternatives in any order, all expressions", "why_tests_cant": "Whether a column lands at the right alternative depends on the relative order of codes and expressions and on repetitions; a test fixes one order.", "anchors": ["larch/model/model.py:required_data", "larch/util/dataframe.py:columnize", "larch/dataframes.pyx:make_dataframes", "larch/model/controller.pyx:load_data", "larch/numba/data_arrays.py:prepare_data"]}
{"id": "C86", "title": "The summary of choices and availability counts right", "statement": "choice_avail_summary() shows for every alternative (and nest) the total of its choices, the number of cases it is available to, and the choices of cases it is not available to, each also weighted by the case weights when these change the totals, and a row with the totals over all alternatives. With a nesting tree a nest shows the sums over the alternatives below it. If no availability is given nothing is reported as unavailable. Both engines give the same summary.", "quantifier": "all data sets of any size, with or without weights, availability and nesting graph", "why_tests_cant": "The sums run over arbitrarily many cases, and whether weights are aligned with cases depends on the relative sizes of the arrays.", "anchors": ["larch/dataframes.pyx:choice_avail_summary", "larch/dataset/__init__.py:choice_avail_summary", "larch/numba/cascading.py:array_ch_cascade", "larch/numba/cascading.py:array_av_cascade", "larch/numba/model.py:choice_avail_summary"]}
{"id": "C87", "title": "Likelihood ratios and rho squared are right and leave the model alone", "statement": "model.likelihood_ratio(name, ref_value) returns the log likelihood at the current parameter values minus the log likelihood with that one parameter changed to the reference value (its null value by default), for all parameters or a list it does so for each one that is not held fast (NaN for those held fast unless include_holdfast), and afterwards every parameter has the settings it had, even if an evaluation fails; rho_sq_null is 1-(LL-k)/LL_null with k the number of free parameters of the model when adjusted.", "quantifier": "all parameter frames, all log likelihood functions, all subsets of parameters, all reference values, evaluations that raise", "why_tests_cant": "the result and the restored state must be right for every frame, every log likelihood function and every failure point; tests evaluate one model", "anchors": ["larch/model/abstract_model.pyx: AbstractChoiceModel.likelihood_ratio, rho_sq_null", "larch/model/parameter_frame.pyx: set_value"]}
{"id": "C88", "title": "set_cap intersects the bounds with the cap", "statement": "model.set_cap(cap) makes the range of each parameter the intersection of its previous range with [-cap, cap], leaves ranges that do not meet [-cap, cap] as they are, fills in missing bounds, and leaves everything else about the parameters alone, with the values within the new ranges.", "quantifier": "all caps, all bounds including infinite and missing ones, all frames", "why_tests_cant": "ranges over all combinations of finite, infinite and missing bounds and all caps", "anchors": ["larch/model/parameter_frame.pyx: ParameterFrame.set_cap"]}
{"id": "C89", "title": "The ordered parameter table lists each parameter exactly once", "statement": "model.pfo() with an ordering lists every parameter of the model exactly once, with its own row, under the first category one of whose patterns matches the name (Other if none does). Categories follow the order of the ordering with Other last, patterns their order within the category, and names matching the same pattern are sorted.", "quantifier": "all parameter names, all orderings with any number of categories and patterns, any matching relation", "why_tests_cant": "overlapping patterns, repeated categories and unmatched names combine in unboundedly many ways", "anchors": ["larch/model/parameter_frame.pyx: ParameterFrame.pfo, ordering"]}
{"id": "C90", "title": "Tables of results are labelled with the right cases and alternatives", "statement": "probability, utility, exputility and quantity with labelled output give a table with exactly one row per selected case, labelled with that case's identifier, and one column per alternative (or node), holding the numbers of that case and alternative at the parameter values given in the call; the stacked format lists the same entries, and the format for available alternatives exactly those of available alternatives; output written into a given array goes to the selected cases only.", "quantifier": "all case identifiers, all slices (start, stop, step) with positive step, all numbers of cases, alternatives and nests, data with and without idco variables, both engines", "why_tests_cant": "a wrong label is silent and depends on the interplay of slices, kinds of data and nests; tests check a few shapes", "anchors": ["larch/model/controller.pyx: Model5c.probability, utility, exputility", "larch/numba/model.py: NumbaModel._wrap_as_dataframe, probability, utility, quantity, logsums"]}
{"id": "C91", "title": "The scikit-learn interface predicts and scores the rows it is given", "statement": "predict_proba(X) gives one probability per row of X, that of the row's case and alternative, labelled like X; predict(X) marks for every case exactly one alternative, an available one with maximal probability; score(X, y) is the mean log likelihood of the choices y of the rows of X, and with sample weights the weighted mean, whatever the order of the rows.", "quantifier": "all idce data (any number of cases and alternatives, any availability, any order of rows), all probabilities, all choice and weight vectors", "why_tests_cant": "alignment of y with X must hold for every order of the rows and every pattern of availability; tests use sorted data", "anchors": ["larch/model/model.py: Model.predict_proba, predict, score", "larch/model/controller.pyx: probability(return_dataframe='idce')"]}
{"id": "C92", "title": "remove_unused_parameters removes only unused parameters", "statement": "After model.remove_unused_parameters() the parameters are exactly those the utility functions, quantity function and nesting structure use; each keeps its value, initial and null value, bounds and held-fast status, the log likelihood is unchanged, and constraints still act on the parameters they name.", "quantifier": "all parameter frames, all specifications, all log likelihood functions of the used parameters", "why_tests_cant": "frames of any size with any mixture of used, unused, new, held-fast and incomplete parameters", "anchors": ["larch/model/model.py: remove_unused_parameters", "larch/model/controller.pyx: unmangle, _scan_all_ensure_names"]}
{"id": "C93", "title": "Saved, copied and cloned models are the same model", "statement": "pickle.loads(m.dumps()), m.copy(), Model(m) and Model(**m.get_params()) give a model with the same specification, nesting structure, parameters with all settings, constraints, penalty settings, best estimates and cached log likelihoods (data apart), on which everything that can be done with m can be done; saving does not change m; saving and loading twice is the same as once.", "quantifier": "all models (either engine), all specifications, nesting structures, parameter frames and constraints", "why_tests_cant": "the state of a model is unbounded and each attribute can be forgotten independently", "anchors": ["larch/model/controller.pyx: __getstate__, __setstate__, dataservice", "larch/numba/model.py: __getstate__, __setstate__, __init__", "larch/model/model.py: __init__, dumps, copy, get_params", "larch/model/tree.py: __getstate__, __set__"]}
{"id": "C94", "title": "The nesting tree built from ActivitySim settings is the one written there", "statement": "construct_nesting_tree(alternatives, settings) returns the tree the settings describe: root 0; one elemental node per alternative with the code given (or 1, 2, 3, ... for a plain list); one new node per nest, whose parameter is its coefficient; each node is a child of exactly those nests under which it is listed; the elemental alternatives of the tree are exactly the given ones. Settings that do not describe a tree over the given alternatives (unknown, omitted or repeated names, empty nests) are refused.", "quantifier": "every set of alternatives and every settings tree of any depth and width", "why_tests_cant": "the construction recurses over arbitrarily nested settings and depends on how new node codes and implied root edges interact; tests use one or two example files", "anchors": ["larch/util/activitysim/general.py:construct_nesting_tree", "larch/model/tree.py:NestingTree.new_node", "larch/model/tree.py:NestingTree.add_edge"]}
{"id": "C95", "title": "A coefficients table is applied to a model as written, and read back", "statement": "apply_coefficients(table, model) gives every parameter of the model named in the table the value of the table, holds it fast exactly when the row says T, leaves all other parameters and all bounds not given in the call alone, locks parameters whose names are numbers at those numbers, and does the same for each model of a dictionary; update_coefficients then reads back the current value of every coefficient without changing names, order or flags.", "quantifier": "every table without repeated names, every parameter frame, every pair of optional bounds, every list of models", "why_tests_cant": "the outcome depends on which columns of a parameter row are missing, on which bounds were passed and on the order of writes; tests check one example", "anchors": ["larch/util/activitysim/general.py:apply_coefficients", "larch/util/activitysim/general.py:explicit_value_parameters", "larch/util/activitysim/general.py:update_coefficients", "larch/model/parameter_frame.pyx:ParameterFrame.set_value"]}
{"id": "C96", "title": "The utility built from an ActivitySim spec is the sum written there", "statement": "linear_utility_from_spec(spec, x_col, p_col, ignore_x) never raises on a well-formed spec and its value, for all data and parameter values, is the sum over the rows that have a coefficient in the column and whose label is not ignored of parameter times data expression; with a dictionary of columns, a case gets the utility of the column whose identifier equals its segment, and zero if there is none; the result can be assigned as a model's utility and mentions only parameters of the spec. dict_of_linear_utility_from_spec gives each code the utility of its column.", "quantifier": "every spec with any number of rows, columns and ignored labels, every data and parameter values", "why_tests_cant": "the sum is built by operator overloading with many special cases (0, components, functions, text simplification of products); tests use one spec", "anchors": ["larch/util/activitysim/general.py:linear_utility_from_spec", "larch/util/activitysim/general.py:dict_of_linear_utility_from_spec", "larch/model/linear.pyx:LinearFunction_C.__mul__", "larch/model/linear.pyx:LinearFunction_C.__init__"]}
{"id": "C97", "title": "Household activity patterns get distinct, stable codes", "statement": "For a household of n persons the coordinated daily activity pattern model has exactly one alternative per way of giving each person one of M, N, H; its code is one plus the pattern read as a base-three number (M=0, N=1, H=2, first person most significant), so the codes are exactly 1..3^n, in order, and two different patterns never share a code.", "quantifier": "every household size and every pattern", "why_tests_cant": "the number of alternatives is exponential in the household size; tests look at sizes up to five", "anchors": ["larch/util/activitysim/cdap.py:generate_alternatives"]}
{"id": "C98", "title": "Individual utilities of an activity pattern are the sum over persons", "statement": "cdap_base_utility_by_person adds to the utility of each pattern, for every person of the household and every row of the person specification, the parameter given for that person's activity times the row's expression evaluated with that person's own columns (p1_x, p2_x, ...); rows without a parameter for the activity add nothing, and no other alternative is touched.", "quantifier": "every household size, person specification, pattern, data and parameter values", "why_tests_cant": "the utility is assembled by nested loops over exponentially many alternatives with textual substitution in expressions; tests check a final likelihood for one specification", "anchors": ["larch/util/activitysim/cdap.py:cdap_base_utility_by_person", "larch/util/activitysim/general.py:apply_replacements"]}
{"id": "C99", "title": "Interaction utilities of an activity pattern count each matching group of persons once", "statement": "cdap_interaction_utility adds to the utility of each pattern, for every row of the interaction table, its parameter once for every set of as many persons as the row's cardinality who all do the row's activity and have, in order, the row's person types ('*' matching anyone); rows without types count only if they are about the whole household. The parameter is the one the coefficient table names for the row's activity, cardinality and types, else the row's own.", "quantifier": "every household size, interaction table, coefficient table, pattern, data and parameter values", "why_tests_cant": "subsets of persons, symmetric groups and wildcard rows are combined by nested loops and string building; tests check a final likelihood for one table", "anchors": ["larch/util/activitysim/cdap.py:cdap_interaction_utility", "larch/util/activitysim/cdap.py:interact_pattern"]}
{"id": "C100", "title": "Selecting cases keeps exactly those cases, with all their data", "statement": "DataFrames.selector_co(expr) returns a container with exactly the cases whose idco data meet the expression: their attributes, choices, availability and weights unchanged and in the same order, all their rows of alternatives unchanged and read at the position of their case, the same alternatives, and the same weight normalization. It does not fail on a valid container.", "quantifier": "every container with any number of cases and alternatives, idca or idce, any selector expression", "why_tests_cant": "the outcome depends on how pandas aligns boolean selectors with differently ordered or duplicated indexes and on what unstack/stack do with missing values and unused levels; tests select from one complete data set", "anchors": ["larch/dataframes.pyx:DataFrames.selector_co", "larch/dataframes.pyx:DataFrames._ensure_consistent_alternative_codes"]}
{"id": "C101", "title": "Names resolve to the right parameter, column and alternative", "statement": "When a model written with names of parameters, data columns and alternative codes is linked to its data, every term is given the position of its own parameter in the parameter frame, of its own column in the data table and of its own alternative; so the computed utilities (and their gradient) are the written specification evaluated on the named values, whatever the order of the columns, alternatives and parameters and whatever else the tables contain. A name that is missing raises instead of resolving to something else.", "quantifier": "all specifications, all parameter frames, all tables with any columns in any order, all data, both engines", "why_tests_cant": "tests use a few example models with one column order", "anchors": ["larch/numba/model.py: model_co_slots, model_u_ca_slots, model_q_ca_slots", "larch/dataframes.pyx: _link_to_model_structure, _check_data_is_sufficient_for_model, data_ca_or_ce", "larch/model/controller.pyx: _scan_all_ensure_names"]}
{"id": "C102", "title": "Evaluations use the model's own specification, parameters and data", "statement": "After any history of creating models, editing their utility functions, setting parameter values, attaching data (also the same data to several models) and evaluating, an evaluation of a model works with the current specification of that model, its own current parameter values and the data attached to it now.", "quantifier": "all histories over any number of models and any number of DataFrames, both engines", "why_tests_cant": "the links between models and data are mutable state; only an invariant over all histories shows they stay current", "anchors": ["larch/model/controller.pyx: set_dataframes, unmangle, _refresh_derived_arrays, __prepare_for_compute", "larch/dataframes.pyx: _link_to_model_structure, _read_in_model_parameters", "larch/numba/model.py: set_dataframes, unmangle, mangle, _rebuild_fixed_arrays"]}
{"id": "C103", "title": "The Hessian is the second derivative and computing it leaves the model as it was", "statement": "d2_loglike (used for the parameter covariance and standard errors) returns, for parameters that are not held fast, the symmetric matrix of second derivatives of the log likelihood at the current values up to the accuracy of a finite difference, and zero for held-fast parameters; missing values are not turned into numbers; and computing it (also through calculate_parameter_covariance and estimate) leaves the parameter values as they were, so that all parts of the covariance refer to the estimates. check_d_loglike compares the gradient at the current values and restores them.", "quantifier": "all numbers of parameters, all held-fast patterns, all gradients, all increments", "why_tests_cant": "tests compare a few numbers with a tolerance above the size of the increment", "anchors": ["larch/math/optimize.py: approx_fprime, _approx_fprime_helper, check_gradient", "larch/model/abstract_model.pyx: loglike3, d2_loglike, check_d_loglike, calculate_parameter_covariance"]}
{"id": "C104", "title": "A gradient check that passes means the gradients agree", "statement": "If assert_gradient_check passes with a required similarity d, the analytic and the finite-difference value of every entry agree to d significant figures (or one is zero and the other at most 1/(100 d)); and gradients that agree pass.", "quantifier": "all pairs of gradients, all required similarities", "why_tests_cant": "a test of the checker tries a few gradients", "anchors": ["larch/math/optimize.py: similarity, check_gradient, assert_gradient_check"]}
{"id": "C105", "title": "Evaluations do not depend on earlier evaluations", "statement": "Whatever was evaluated before (any methods, any parameter values, any slices of cases, with soft penalties on or off), loglike, d_loglike, bhhh, loglike2_bhhh, probability, utility, quantity, logsums and the casewise variants return the values for the parameters and settings now in force; a penalty that is zero changes nothing; and the total, penalty and actual log likelihood reported during estimation fit together.", "quantifier": "every history of evaluations and settings, every model, data set, slice and initial content of the work arrays", "why_tests_cant": "unbounded histories over shared, partially overwritten arrays", "anchors": ["larch/numba/model.py:NumbaModel._loglike_runner", "larch/numba/model.py:_numba_master", "larch/numba/model.py:_numba_utility_to_loglike", "larch/numba/optimization.py:fit_bhhh"]}
{"id": "C106", "title": "The arrays of a matrix file fit the file", "statement": "In an OMX file built through the class (shape=, add_matrix, add_lookup, add_blank_matrix, add_blank_lookup, omx[name] = array, crop), every matrix has the shape of the file, every lookup has the length of one of its dimensions and names are distinct within a group, after every history including calls that raise; a call that raises changes nothing; an added array is read back and leaves the others alone; nothing is replaced without overwrite; crop keeps the cells of the upper left block.", "quantifier": "all histories of statements on a file, all shapes, names and contents", "why_tests_cant": "the invariant must survive every interleaving of successful and failing calls; a test runs a few", "anchors": ["larch/omx.py:OMX.shape", "larch/omx.py:OMX.crop", "larch/omx.py:OMX.add_matrix", "larch/omx.py:OMX.add_lookup", "larch/omx.py:OMX.add_blank_matrix", "larch/omx.py:OMX.add_blank_lookup", "larch/omx.py:OMX.__setitem__", "larch/omx.py:OMX.__getitem__"]}
{"id": "C107", "title": "Importing tables into a matrix file", "statement": "import_datatable, import_datatable_3d and import_datatable_as_lookups put each value of the table in the cell of its row and column number (or zone) and leave every other cell as it was, whatever the chunk size, base and order of the rows; the first two do the same.", "quantifier": "all tables, all ways to cut them into chunks, both numbering bases, all prior contents", "why_tests_cant": "test tables are smaller than one chunk; the statement is about every table and chunk size", "anchors": ["larch/omx.py:OMX.import_datatable", "larch/omx.py:OMX.import_datatable_3d", "larch/omx.py:OMX.import_datatable_as_lookups"]}
{"id": "C108", "title": "Cells of a matrix file as frames", "statement": "get_rc_dataframe returns, for every position, the cells of each named matrix at the given row and column, in order, labelled by the given index, the index of the arguments, or row and column; join_rc_dataframe gives each row of the frame its own cells and keeps the rows as they are.", "quantifier": "all files, index arguments (integer, array, list, Series), names and frames", "why_tests_cant": "depends on the kind of every argument and on repeated labels; tests use one of each", "anchors": ["larch/omx.py:OMX.get_rc_dataframe", "larch/omx.py:OMX.join_rc_dataframe"]}
{"id": "C109", "title": "Nests built from categories are the nests of those categories", "statement": "magic_nesting on a model over coded alternatives builds the tree whose nests at level l are the combinations of values of the first l+1 groupby columns, each with the parameter of its column, the alternatives of a combination being below its nest and nothing else; magic_ogev_nesting with coverage c puts two alternatives under a common nest exactly when they agree on all but the last column and their category ranks there are less than c apart; both leave no trace of the default graph and no cycles.", "quantifier": "all frames, numbers of groupby columns, paddings, coverages and parameter names", "why_tests_cant": "depends on how many bits the counters and the categories of the frame need; a test fixes one frame", "anchors": ["larch/model/systematic_alternatives.py:magic_nesting", "larch/model/systematic_alternatives.py:magic_ogev_nesting", "larch/model/systematic_alternatives.py:bitmask_shift_value", "larch/model/tree.py:NestingTree.add_edge", "larch/model/tree.py:NestingTree.add_node"]}
{"id": "C110", "title": "A second frame is coded like the first", "statement": "compute_alternative_codes codes a test frame consistently with the training frame: a row gets the code of the training row with the same categories and counter; it raises exactly when a category is unknown. new_alternative_codes of a list of frames codes all of them consistently and describes the alternatives of all of them.", "quantifier": "all training and test frames, lists of frames, feature lists and paddings", "why_tests_cant": "consistency depends on the largest counter of either frame; tests recode the frame itself", "anchors": ["larch/model/systematic_alternatives.py:SystematicAlternatives.compute_alternative_codes", "larch/model/systematic_alternatives.py:new_alternative_codes", "larch/model/systematic_alternatives.py:_multiple_new_alternative_codes"]}
{"id": "C111", "title": "The code column does not replace a column of the frame", "statement": "With overwrite=False the column of new codes gets the given name, or the first free versioned name, and never the name of an existing column, for one frame and for a list of frames.", "quantifier": "all column names of all frames", "why_tests_cant": "the free name depends on all columns of all frames", "anchors": ["larch/model/systematic_alternatives.py:new_alternative_codes", "larch/model/systematic_alternatives.py:_multiple_new_alternative_codes"]}
{"id": "C112", "title": "The report of over-specification names exactly the unidentified directions", "statement": "After calculate_parameter_covariance, possible_overspecification reports something exactly when the free parameters can be moved along a direction in which the log likelihood has (nearly) no curvature; every item is such a direction with its curvature, naming exactly the parameters that take part in it and never one that is held fast; and it describes the last calculation.", "quantifier": "all information matrices (any number of parameters), holdfast patterns and histories of calculations", "why_tests_cant": "ranges over all matrices; tests use one over-specified model", "anchors": ["larch/model/possible_overspec.py:compute_possible_overspecification", "larch/model/abstract_model.pyx:AbstractChoiceModel.calculate_parameter_covariance", "larch/model/abstract_model.pyx:AbstractChoiceModel.possible_overspecification"]}
{"id": "C113", "title": "Standard errors and t statistics are those of the covariance matrix", "statement": "After calculate_parameter_covariance the column std_err is the root of the parameter's variance in covariance_matrix and t_stat the distance of the estimate from its null value in standard errors; constraints never increase a standard error; parameters held fast or pinned by a binding bound have no standard error and are noted in the column constrained, which names the binding constraints of the last calculation.", "quantifier": "all information matrices, estimates, holdfast patterns, constraint lists and earlier calculations", "why_tests_cant": "ranges over all matrices, constraints and histories", "anchors": ["larch/model/abstract_model.pyx:AbstractChoiceModel.calculate_parameter_covariance", "larch/model/model.py:Model._get_bounds_constraints", "larch/linalg/__init__.py:general_inverse"]}
{"id": "C114", "title": "The marks of significance say what they mean", "statement": "In parameter_summary a parameter has as many asterisks as its t statistic exceeds of the 5%, 1% and 0.1% levels; without a finite t statistic it has the marks of its likelihood ratio in brackets, which agree with those of t where the log likelihood is quadratic; with neither there is no mark.", "quantifier": "all t statistics and likelihood ratios, finite or not, present or not", "why_tests_cant": "ranges over all numbers, infinities and NaN", "anchors": ["larch/model/parameter_frame.pyx:ParameterFrame.parameter_summary"]}
{"id": "C115", "title": "Printed linear functions are the functions", "statement": "The repr (and __code__) of a linear utility function, read as a Python expression, has the value of the function for all parameter and data values; evaluated in Python with P and X it gives back the same terms in the same order.", "quantifier": "all linear functions (any number of terms, any parameters, data expressions and scales), all parameter and data values, all names of parameters and data", "why_tests_cant": "the claim is about every function, every operator precedence interaction, every name and every value", "anchors": ["larch/model/linear.pyx: ParameterRef_C.__repr__, DataRef_C.__repr__, LinearComponent_C.__repr__, LinearFunction_C.__repr__, LinearFunction_C.__code__, LinearFunction_C.__init__, DictOfLinearFunction_C.__setitem__"]}
{"id": "C116", "title": "Tables of utility functions show the utilities", "statement": "The table of utility functions of a model (as a frame and as HTML) has, for each requested alternative and no other, lines numbered from 1 that read together as an expression whose value is the alternative's systematic utility: utility_ca and utility_co terms plus scale times log of the quantity function.", "quantifier": "all models (any utility_ca, utility_co, quantity_ca, quantity_scale), all alternatives, subsets, parameter and data values", "why_tests_cant": "must hold for every combination of functions and every value", "anchors": ["larch/model/model.py: Model.utility_functions, Model._utility_functions_as_frame", "larch/model/linear.pyx: LinearComponent_C._str_exponentiate, LinearComponent_C.__xml__, LinearFunction_C.__xml__"]}
{"id": "C117", "title": "The specification hash identifies the specification", "statement": "specification_hash digests a text that changes whenever the specification changes (a term of any utility or quantity function, a nest's parameter, the nesting tree) and does not change otherwise.", "quantifier": "all pairs of specifications and nesting trees, all digest functions", "why_tests_cant": "a statement about all pairs of models", "anchors": ["larch/model/controller.pyx: specification_hash", "larch/model/linear.pyx: LinearFunction_C.__repr__, DictOfLinearFunction_C.__repr__", "larch/model/tree.py: NestingTree"]}
{"id": "C118", "title": "The pods of a data service fit together", "statement": "After any calls on a list of pods or a DataService (insert, append, set, delete, add_pod, set_alternatives, idca_reset, also such that raise) the shapes of all pods in a list agree and are for the number of cases the service reports; a pod is accepted exactly if it agrees with every pod held; an accepted pod is last in its list and found under its identifier; a refused pod changes nothing.", "quantifier": "all histories of calls, all pods (any shape, kind, identifier), any number of alternatives", "why_tests_cant": "an invariant over all histories of calls and all shapes", "anchors": ["larch/data_services/podlist.py: Pods.insert, Pods.__setitem__, Pods.__delitem__, Pods.shape, Pods.__check_shape, PodsCA.shape", "larch/data_services/service.py: DataService.__init__, add_pod, _cleanup_trailing_dims, set_alternatives, idca_reset"]}
{"id": "C119", "title": "Data items are read from the first pod that has them, and reloading what may have changed is enough", "statement": "For a list of names the array read has, in order, the item of the first pod that has it, or the value of the expression with each name read from the first pod that has it. Reloading with a mask pattern into the array returned earlier gives what a full load gives, if since then only pods outside the pattern have changed.", "quantifier": "all lists of pods, names, expressions, masks, patterns and arrays", "why_tests_cant": "must hold for every combination of pods, masks and expressions", "anchors": ["larch/data_services/podlist.py: Pods.load_data_item, get_data_items, load_data_items, get_data_mask", "larch/data_services/service.py: DataService.load_idco, load_idca", "larch/data_services/pod.py: Pod.durable_mask"]}
{"id": "C120", "title": "The data read with a selector are those of the selected cases", "statement": "For every selector (slice with any start, stop and step; mask; list of positions) the number of rows reserved is the number of cases selected, the data read are those of the selected cases in order, and frames label each row with its case (and alternative). A selector given as an expression or several selects exactly the cases where all are true; a refused selector changes nothing.", "quantifier": "all numbers of cases, all selectors, all columns, all alternative codes", "why_tests_cant": "quantifies over all slices, masks and data", "anchors": ["larch/data_services/general.py: selector_len_for", "larch/data_services/service.py: DataService.selector, caseindexes, array_idco, dataframe_idco, array_idca, dataframe_idca"]}
{"id": "C121", "title": "The value of a parameter expression is its value at the model's parameters", "statement": "pvalue(expression) and get_value(expression) give, for a name, a reference, arithmetic of references and numbers, a linear component or function without data, the arithmetic value at the model's current parameter values; if a named parameter is missing they give the default or raise KeyError, and for a dictionary (list) of expressions they give each its value. Asking changes no parameter, valid() tells whether value() raises, and with several models the first that has the parameter counts.", "quantifier": "all models (scanned or not), all expressions, values, defaults, dictionaries and lists", "why_tests_cant": "all expression trees and parameter values", "anchors": ["larch/model/parameter_frame.pyx: ParameterFrame.pvalue, get_value", "larch/model/linear.pyx: ParameterRef_C.value, valid", "larch/model/linear_math.py: ParameterOp.value, valid"]}
{"id": "C122", "title": "Evaluating a linear function with data gives the sum of parameter times data, and rewriting its texts does what it says", "statement": "LinearFunction.evaluate(model, x_namespace) is the sum over the terms of scale times the parameter (or its exponential with exp_params) times the value of the data expression in the namespace; for a function without data it agrees with pvalue. reformat_param renames the parameters only: the value is that of the old function at the renamed parameters; reformat_data with a function call around the data gives the value with the function applied.", "quantifier": "all linear functions, data expressions, namespaces, parameter values, substitutions", "why_tests_cant": "all expressions and values", "anchors": ["larch/model/linear.pyx: LinearComponent_C.evaluate, LinearFunction_C.evaluate, DataRef_C.eval, reformat_param, reformat_data"]}
{"id": "C123", "title": "A constraint written as text says what is written", "statement": "Text given to model.constraints (or to OrderingBound) that can be read as an inequality between a parameter, a ratio of parameters and numbers is accepted and the resulting constraint holds exactly when that inequality does, whatever the spaces, signs and number format; whatever text is accepted says what the constraint enforces; other text raises; a text has one reading.", "quantifier": "all texts, all names, numbers, spaces, all parameter values, any character classes", "why_tests_cant": "all texts, and ten overlapping patterns tried in order", "anchors": ["larch/model/constraints.py: interpret_contraint, asfloat, OrderingBound.__init__, ParametricConstraintList.insert, __setitem__, __init__"]}
{"id": "C124", "title": "Loading data into a model leaves its source and other models alone", "statement": "Loading data into a model from a DataFrames (load_data), and rescaling the weights of any model, leaves the source and all other models loaded from it counting every choice with the same weight as before; a model that names neither choices nor weights counts like its source.", "quantifier": "all sources, all choices and weights, all sequences of loads and of scale/autoscale/unscale calls on any of the objects", "why_tests_cant": "depends on which arrays are shared after any history of loads", "anchors": ["larch/dataframes.pyx: make_dataframes, autoscale_weights, scale_weights, unscale_weights, data_wt, data_ch", "larch/model/controller.pyx: load_data"]}
{"id": "C125", "title": "Log likelihoods of no model and of constants only are what they are called", "statement": "loglike_nil is the weighted log likelihood with all available alternatives equally likely; loglike_constants_only is at least that and, with everything available, at most the log likelihood of the market shares, which constants attain; rho_sq_nil is one minus the ratio; computing them leaves the model's own results alone.", "quantifier": "all data with chosen alternatives available, all weights, any optimizer that does not end below its start", "why_tests_cant": "all data and weights, all constants (Gibbs inequality)", "anchors": ["larch/model/abstract_model.pyx: loglike_nil, rho_sq_nil, loglike_constants_only", "larch/model/controller.pyx: load_data", "larch/model/mnl.pyx: mnl_d_log_likelihood_from_dataframes_all_rows"]}
{"id": "C126", "title": "Each row of the table of estimation statistics shows the value its label names", "statement": "estimation_statistics shows the number of cases, the log likelihood of the last estimation, and the reference log likelihoods that are known, each with its value per case and the rho squared with respect to it, for the model's data and specification.", "quantifier": "all histories of estimations, computations of reference values and tables", "why_tests_cant": "all histories", "anchors": ["larch/model/abstract_model.pyx: estimation_statistics", "larch/util/excel.py: _estimation_statistics_excel", "larch/model/optimization.py: maximize_loglike"]}
{"id": "C127", "title": "A latent class model is given the data its classes specify", "statement": "The data a latent class model asks for are exactly the variables of its classes and of its membership model, with the choices, availability and weights as the classes specify them, classes that disagree being refused; after loading, every variable is there with its values, and the log likelihood is the weighted sum over cases with the weights given. Any integers can be keys of the classes.", "quantifier": "all lists of classes with any specifications, all membership models, all data sources, all probabilities and weights, any order of Python sets", "why_tests_cant": "depends on which way each class specifies choices, availability and weights, in any combination", "anchors": ["larch/model/latentclass.py: required_data, load_data, dataframes, loglike, probability", "larch/model/model.py: required_data", "larch/dataframes.pyx: make_dataframes, autoscale_weights"]}
{"id": "C128", "title": "The joint table of several models shows each model in its own column", "statement": "joint_parameter_summary has one row for every parameter of every model, in its category; the column of a model shows that model's values and t statistics, blank for parameters it does not have, and below them its own log likelihoods and rho squared and those with respect to the bases.", "quantifier": "all lists of models with any parameters, results and titles, all orderings, all bases, all options", "why_tests_cant": "all combinations of shared parameters, missing results and titles", "anchors": ["larch/util/summary.py: joint_parameter_summary, joint_parameter_indexing, joint_parameter_names", "larch/model/abstract_model.pyx: loglike_null, loglike_nil, rho_sq_null, rho_sq_nil"]}
{"id": "C129", "title": "Data saved to Feather files are loaded back", "statement": "A DataFrames written by to_feathers and read by from_feathers has the same frames, values, labels, alternatives and weight normalization; loading a component into existing data with inject_feathers sets that component to the saved one and leaves the others, and a failed injection leaves the data unchanged.", "quantifier": "all sound DataFrames with any components, sizes, values and memory layouts, any files present before", "why_tests_cant": "all combinations of components, shapes and memory layouts, and any files left by earlier saves", "anchors": ["larch/dataframes.pyx: to_feathers, from_feathers, inject_feathers"]}
{"id": "C130", "title": "Cracking alternatives' data into case data loses nothing", "statement": "Cracking a frame of alternatives moves exactly the numeric columns that are constant within every case to a frame with one row per case, and every value of every row can be recovered from the two parts; weights given per alternative become weights per case only if constant within the case.", "quantifier": "all frames of alternatives with any rows and columns, missing values included; all weights", "why_tests_cant": "which columns move depends on every value in the frame", "anchors": ["larch/dataframes.pyx: crack_idca, force_crack_idca, DataFrames.__init__, data_wt"]}
{"id": "C131", "title": "A numba model uses the data assigned to it last", "statement": "After assigning data to a model (model.datatree, model.dataframes or model.dataset), evaluations use exactly that data with the present specification, as a new model given the same data would, whatever was assigned, edited, evaluated or raised before.", "quantifier": "all histories of assignments of trees, frames and prepared data sets, edits of the specification and of the data, evaluations and exceptions; all data contents", "why_tests_cant": "unbounded histories over several caches (graph, prepared data, arrays, positions, work arrays)", "anchors": ["larch/numba/model.py: NumbaModel.datatree, dataset, set_dataframes, mangle, unmangle, reflow_data_arrays, _rebuild_work_arrays, _rebuild_fixed_arrays, __prepare_for_compute, initialize_graph, n_cases", "larch/model/tree.py: NestingTree.__get__, __set__", "larch/model/controller.pyx: unmangle, initialize_graph"]}
{"id": "C132", "title": "Top-k accuracy is the share of choices among the k most probable", "statement": "top_k_accuracy(k) is the weighted share of choices that fall on one of the k most probable alternatives of their case; it lies between 0 and 1, does not decrease with k and is 1 when k is the number of alternatives; alternatives with equal probability are treated alike.", "quantifier": "all numbers of cases and alternatives, all probabilities, choices and weights, all k, all results of an unstable sort", "why_tests_cant": "holds for every array and every order in which the sort may leave equal values", "anchors": ["larch/scoring.py: probability_to_rank, top_k_accuracy", "larch/model/controller.pyx: Model5c.top_k_accuracy"]}
{"id": "C133", "title": "A jump start makes one step for every group of cases", "statement": "jumpstart_bhhh(steplen, jumpstart, jumpstart_split) goes `jumpstart` times through all cases in at most `jumpstart_split` groups, every case in exactly one group, and makes for each group the BHHH step of that group from where the previous step ended; the steps do not point downhill, parameters held fast do not move, and cases left out of an estimation have no influence.", "quantifier": "all numbers of cases, groups, rounds, parameters, hold patterns, scores, non-negative weights, step lengths", "why_tests_cant": "holds for all case counts and splits (remainders), all score functions and hold patterns, any number of rounds", "anchors": ["larch/model/abstract_model.pyx: jumpstart_bhhh, _free_slots_inverse_matrix, simple_fit_bhhh", "larch/numba/model.py: NumbaModel.jumpstart_bhhh, loglike2_bhhh", "larch/numba/optimization.py: fit_bhhh", "larch/linalg/__init__.py: general_inverse"]}
{"id": "C134", "title": "The alternatives given to a dataset are its alternatives", "statement": "Dataset.construct(source, caseid=, alts=), larch.merge(..., caseid=, alts=) and dc.set_altids give the dataset exactly the cases dimension, alternative codes and names they are told, in whichever form (mapping or series, codes to names or names to codes, list, name of a dimension), raise when that is impossible, leave every alternative's data with that alternative, and larch.merge merges as its options say.", "quantifier": "all datasets, all lists of alternatives in all accepted forms, all dimension names", "why_tests_cant": "all forms, orders, sizes and prior contents", "anchors": ["larch/dataset/construct.py: _initialize_for_larch, from_idco", "larch/dataset/__init__.py: merge", "larch/dataset/flow.py: CASEID, ALTID, set_altids, altids, alts_mapping"]}
{"id": "C135", "title": "The choices of a DataFrames are the choices it is given", "statement": "DataFrames(ch=...) in every documented form (name of a column of codes, Series of codes, Series or column with one row per alternative, frame with one column per alternative, values for the rows) has, at the position of each case and each alternative, the choice given for that case and alternative, 0 for alternatives without data, and the alternatives are those given by alt_codes or the data; choices that cannot be assigned raise.", "quantifier": "all forms, all frames in any order, all sets of cases and alternatives", "why_tests_cant": "all orders of rows, missing rows and sets of alternatives", "anchors": ["larch/dataframes.pyx: DataFrames.__init__, data_ch, to_categorical, _ensure_consistent_alternative_codes, _fast_check_multiindex_equality"]}
{"id": "C136", "title": "The availability and weights of a DataFrames are those it is given", "statement": "DataFrames(av=..., wt=...) in every documented form (True, a dictionary of columns, the name of a column, a Series, a frame) has at each position the availability given for the case and alternative and the weight given for the case; a name that cannot be resolved raises.", "quantifier": "all forms, all frames in any order, all sets of cases and alternatives", "why_tests_cant": "all orders of rows and columns and all combinations of forms", "anchors": ["larch/dataframes.pyx: DataFrames.__init__, data_av, data_wt, caseindex, force_crack_idca"]}
{"id": "C137", "title": "A DataFrames saved in a file is loaded back", "statement": "DataFrames.load(f) after d.dump(f) gives a container with the same data: frames, cases, order, alternative codes and names, weights and their total, format and index names.", "quantifier": "all containers that the constructor can make, with any later scaling of the weights", "why_tests_cant": "all combinations of frames present, orders of rows and sets of alternatives", "anchors": ["larch/dataframes.pyx: DataFrames.dump, DataFrames.load, DataFrames.__init__, total_weight, alternatives"]}
{"id": "C138", "title": "New systematic alternatives keep the data of every row", "statement": "After new_systematic_alternatives gives each idce row a new code, the new container has the same rows of data with the new codes, each row's choice and availability is that of the old row under its new code, and (case, code) pairs without a row are neither chosen nor available; data of cases, weights and their normalization are unchanged.", "quantifier": "all containers of idce data with choices and availability and all assignments of new codes that do not give two rows of one case the same code", "why_tests_cant": "all sets of rows, all assignments of codes and orders", "anchors": ["larch/dataframes.pyx: DataFrames.new_systematic_alternatives", "larch/model/systematic_alternatives.py: new_alternative_codes"]}
{"id": "C139", "title": "Frames made of several frames hold the data of each", "statement": "data_ca_as_ce returns exactly the idca rows of available alternatives; data_ce_as_ca returns a row for every case and alternative, equal to the idce row where there is one and zero elsewhere, so that condensing it gives the idce data back; data_co_combined and data_ca_combined return, for every case or row, its own data and those of the other frame under the names of their columns.", "quantifier": "all frames of case data, idca and idce data, availability tables, column names and missing values", "why_tests_cant": "all sets of rows, orders and missing values", "anchors": ["larch/dataframes.pyx: DataFrames.data_ca_as_ce, data_ce_as_ca, data_co_combined, data_ca_combined"]}
{"id": "C140", "title": "The size terms of a location choice model are those of the size specification", "statement": "In a model made by location_choice_model, the quantity of a zone for a chooser at the starting values is the size that the size specification gives for the chooser's segment; one coefficient per segment, the first, is held fast as reference; and the choosers kept are those whose observed zone has positive size for their own segment.", "quantifier": "all size specifications, segment numbers, land use tables and choosers", "why_tests_cant": "all sets of segments and fields, zeros, names", "anchors": ["larch/util/activitysim/location_choice.py: size_coefficients_from_spec, location_choice_model", "larch/util/activitysim/general.py: apply_coefficients"]}
{"id": "C141", "title": "Utilities and availability of a tour mode choice model are those of the spec", "statement": "In a model made by tour_mode_choice_model, the utility of an alternative for a purpose is the sum that the spec writes with the coefficients that the coefficient template names for this purpose, and an alternative is available to a chooser exactly if no row of the spec excludes it with the coefficient -999.", "quantifier": "all specs, templates, purposes, alternatives, choosers' data and parameter values", "why_tests_cant": "all specs and templates, all data", "anchors": ["larch/util/activitysim/tour_mode_choice.py: tour_mode_choice_model", "larch/util/activitysim/general.py: linear_utility_from_spec"]}
{"id": "C142", "title": "Linked coefficients and availability of a tour frequency model", "statement": "link_same_value_coefficients gives coefficients of equal value one name and coefficients of different value different names, and leaves the utility at the starting values unchanged; an alternative is available exactly if the data of every term whose coefficient is held fast below -900 are not positive.", "quantifier": "all coefficient tables, specs, data and parameter tables", "why_tests_cant": "all tables and all coincidences of values", "anchors": ["larch/util/activitysim/nonmand_tour_freq.py: link_same_value_coefficients, unavail_parameters, unavail_data_cols, unavail"]}
{"id": "C143", "title": "cv_to_ca turns a choosers-variables table into idca data without changing a value", "statement": "The frame returned by cv_to_ca has its rows sorted by chooser and alternative and its columns by variable; for every chooser, alternative and variable it holds the value that the table has in the row of the chooser and variable below the alternative (True and False counting as 1 and 0), and nothing else; a table of whole-number labels and numeric cells without repetitions is always converted.", "quantifier": "all tables, labels, numbers and missing cells", "why_tests_cant": "all tables, all orders of rows and columns, all patterns of missing cells", "anchors": ["larch/util/activitysim/general.py: cv_to_ca"]}
{"id": "C144", "title": "Only choosers with a valid observed choice are kept, with the code of their choice", "statement": "clean_values keeps, in order, exactly the choosers whose observed choice is one of the alternatives, adds the code of that alternative (numbered from 1 in the order of the spec) and changes no other value except that missing values become 0; auto_ownership_model keeps exactly the choosers with a valid observed choice.", "quantifier": "all tables of choosers, specs and choices", "why_tests_cant": "all tables, names and missing values", "anchors": ["larch/util/activitysim/general.py: clean_values, remove_apostrophes, simple_simulate_data", "larch/util/activitysim/auto_ownership.py: auto_ownership_model"]}
{"id": "C145", "title": "Renaming keeps idca and idco columns apart", "statement": "After prevent_overlapping_column_names no column name of the idca data is a column name of the idco data, different columns of the idca data still have different names, and columns that were not shared keep their name.", "quantifier": "all lists of column names", "why_tests_cant": "all coincidences of names", "anchors": ["larch/util/activitysim/general.py: prevent_overlapping_column_names"]}
{"id": "C146", "title": "Statistics of a column describe its available values", "statement": "statistics_for_array reports for an array the number, least and greatest value, median, mean, standard deviation, and numbers of zero, positive and negative values of its available values (all finite values if no availability is given), the same without zeros, and the numbers of missing and infinite entries, and these numbers add up to the size of the array.", "quantifier": "all arrays with missing and infinite entries, all availability arrays", "why_tests_cant": "all arrays, all patterns of missing values and ties", "anchors": ["larch/util/statistics.py: statistics_for_array, statistics_for_dataframe"]}
{"id": "C147", "title": "Counts of unique values and inverse maps", "statement": "uniques lists each value of a series once, in increasing order, with the number of times it occurs, and the missing values, and the counts add up to the length; invmap returns a key whose value is the one given, and the inverse if values are different.", "quantifier": "all series and mappings", "why_tests_cant": "all series", "anchors": ["larch/util/statistics.py: uniques, invmap"]}
{"id": "C148", "title": "The array made of an idce pod holds every row in its place", "statement": "create_indexes_from_labels returns the labels that occur, once and in order, and gives every entry the place of its label; as_array_idca (and the idca pod made from an idce pod) then has one row per case label, one column per alternative label and one layer per name, holds the value of every row at the places of its labels and zero elsewhere, and the presence layer holds one exactly where there is a row.", "quantifier": "all label vectors, data vectors, names and presence flags", "why_tests_cant": "all orders of rows and labels, all ragged shapes", "anchors": ["larch/data_services/h5/h5pod/idce.py: create_indexes_from_labels, as_array_idca", "larch/data_services/h5/h5pod/idca.py: from_idce"]}
{"id": "C149", "title": "verify_hash_file tells whether a file is what make_hash_file saw", "statement": "As long as every refused access comes when the file is opened and there are fewer of them than max_retries, verify_hash_file accepts a file exactly if its hash file (beside it or in hash_dir) holds the digest of its contents, and raises otherwise; a hash file made by make_hash_file is accepted until the contents change; hashing a compressed copy writes the same digest to the same place as hashing the original.", "quantifier": "all contents, digests, file systems and schedules of refused reads", "why_tests_cant": "every interleaving of refusals with reads, every content", "anchors": ["larch/util/zipdir.py: make_hash_file, verify_hash_file"]}
{"id": "C150", "title": "gzip_dir keeps every file it takes", "statement": "gzip_dir compresses every matching file: the copy in the destination expands to the contents, the hash file holds their digest, the original is removed or left alone as asked, every other file is untouched, and none of this depends on the order in which the files are taken; Archiver.gzip_by_glob puts such a copy into each of its directories and leaves the source alone.", "quantifier": "all file systems, patterns, destinations, flags and orders of the set of targets", "why_tests_cant": "set order varies between runs; all directories", "anchors": ["larch/util/zipdir.py: gzip_dir, gzip_archive, Archiver.gzip_by_glob"]}
{"id": "C151", "title": "zipdir archives the files below a directory", "statement": "Without skip_dots the archive holds every file below the source directory under its relative path with its contents and nothing else; with skip_dots it holds exactly the files no part of whose path begins with a dot; members of different files are different; Archiver.zip_dir makes the same archive in each of its directories.", "quantifier": "all directory trees, names and contents", "why_tests_cant": "all trees and names", "anchors": ["larch/util/zipdir.py: _zipdir, zipdir, Archiver.zip_dir, Archiver.__init__"]}
{"id": "C152", "title": "A rate limiter lets through at most one call per interval", "statement": "However many threads share a BlockingRateLimiter and however they are scheduled, next returns at most once per interval since the limiter was made (plus one at the start), the grants are at least the interval apart, and every waiting thread can still come to return; a function under NonBlockingRateLimiter is started at most once per interval and a call is dropped only within the interval after a start.", "quantifier": "all intervals, numbers of threads, schedules and clock advances", "why_tests_cant": "races show up in few schedules only", "anchors": ["larch/util/rate_limiter.py: BlockingRateLimiter, NonBlockingRateLimiter, GlobalRateLimiter"]}
{"id": "C153", "title": "polynomial and fourier_series are the functions they name", "statement": "polynomial(x, p, powers, funs) is a linear function which evaluates to the sum of the coefficients p+label times the powers (and functions) of the value of x, whatever expression x is; fourier_series(x, p, n) evaluates to the sum of n differently named coefficients times the sines and cosines of 2k\u03c0 times the value of x, so that it has period one in x.", "quantifier": "all expressions, parameter values, data values, powers, functions and lengths", "why_tests_cant": "all expressions; precedence errors show up for some texts only", "anchors": ["larch/util/common_functions.py: polynomial, fourier_series"]}
{"id": "C154", "title": "Expanded and normalized data", "statement": "fourier_expansion makes exactly the columns to which the terms of fourier_series of the same name and length refer, in the same order, each holding what its name means; normalize leaves missing entries missing and gives the others mean zero and standard deviation one over std_div.", "quantifier": "all data, names, lengths and divisors", "why_tests_cant": "all data vectors", "anchors": ["larch/util/common_functions.py: fourier_expansion_names, fourier_expansion, normalize"]}
{"id": "C155", "title": "What a prelearner is fitted to", "statement": "A prelearner with a share of the data set aside for validation is fitted to the rest, with its weights; without such a share it is fitted to all the data; the progress on the training and validation data is reported under the labels of those data; the classifier in a cache file is the one every later prelearner uses; and the columns joined for training keep the rows of the data on alternatives, each with the values of its case.", "quantifier": "all data, weights, shares, validation sets, cache states and later calls", "why_tests_cant": "all combinations of arguments and histories of the cache file", "anchors": ["larch/prelearning.py: Prelearner.__init__, filter_and_join_columns, XGBoostPrelearner.evals_result"]}
{"id": "C156", "title": "Levels of a MultiIndex keep their look", "statement": "remove_unused_level leaves the index as it looks, row by row, leaves the other levels alone, and the levels named keep exactly the labels some row has; replace_levels with distinct labels among which are all the old ones leaves the index as it looks, and refuses if an old label is not among them.", "quantifier": "all indexes, with missing labels, and all sets of levels", "why_tests_cant": "all codes and label orders", "anchors": ["larch/util/multiindex.py: remove_unused_level, replace_levels"]}
{"id": "C157", "title": "Tallies count every entry once", "statement": "tally gives one row for every value of a column with the number of its occurrences, larger ones first, a last row for missing values if there are any, and counts which add up to the length; tally_weighted gives the sums of the weights at the places of each value.", "quantifier": "all columns and weights", "why_tests_cant": "all columns", "anchors": ["larch/util/counting.py: tally, tally_weighted"]}
{"id": "C158", "title": "FastMapping maps labels to their values", "statement": "A FastMapping made from a series gives for each target, in order, the value with that label, the last of repeated ones, and raises for a target which is no label; made from an array it gives places.", "quantifier": "all series, arrays and targets", "why_tests_cant": "all mappings and targets", "anchors": ["larch/numba/fast_mapping.py: FastMapping, _fast_map"]}
{"id": "C159", "title": "Parts of the nesting tree", "statement": "subgraph_from(node) is a tree rooted at the node with the nodes at or below it, their edges and their parameters; elemental_descendants(code) are the nodes without children at or below the code, each once; the competitive edges are exactly those to nodes with several parents; n_intermediate_nests is the number of nests other than the root.", "quantifier": "all nesting graphs, with nodes of several parents, and all nodes", "why_tests_cant": "all graphs", "anchors": ["larch/model/tree.py: subgraph_from, elemental_descendants, standard_competitive_edge_list, n_intermediate_nests"]}
{"id": "C160", "title": "Equality and membership of linear functions", "statement": "Linear functions are equal exactly when they have the same terms in the same order, components when names and scale agree, and equality is an equivalence; `P.a in f` and `X.b in f` tell whether a term has the parameter or data, and _index_of gives the first such place.", "quantifier": "all functions, components and references", "why_tests_cant": "all functions and names", "anchors": ["larch/model/linear.pyx: ParameterRef_C.__eq__, DataRef_C.__eq__, LinearComponent_C.__eq__, LinearFunction_C.__eq__, __contains__, _index_of"]}
{"id": "C161", "title": "Assigning utility functions does what is written or nothing", "statement": "After any history of assignments and in-place additions to utility_ca and utility_co the functions are what the statements say; a statement that raises leaves them as they were; looking at a function changes nothing.", "quantifier": "all histories of statements and all values assigned, also unsuitable ones", "why_tests_cant": "all histories and values", "anchors": ["larch/model/linear.pyx: LinearFunction_C.__init__, __set__, __iadd__, DictOfLinearFunction_C.__init__, __set__, __getitem__, __setitem__, __delitem__", "larch/numba/model.py: model_co_slots"]}
{"id": "C162", "title": "Merging a table into a pod", "statement": "merge_external_data adds, for every case, the values of the row of the other table with the case's key (missing when there is none), keeps the variables the pod has, and raises when a case fits several rows; overwrite, dupe_suffix and other_dedupe do what they say.", "quantifier": "all pods, tables, keys and arguments", "why_tests_cant": "all tables and keys", "anchors": ["larch/data_services/h5/h5pod/idco.py: merge_external_data", "larch/data_services/h5/h5pod/idce.py: merge_external_data", "larch/data_services/h5/h5pod/generic.py: add_array"]}
{"id": "C163", "title": "Pods that look their data up", "statement": "A pod of row and column numbers gives every selected case the cell of its row and column, an idga pod its row, an id0a pod the one stored row, and a stack the expression named for each alternative (0 when none), in the order of the selected cases; a number that is no row or column raises.", "quantifier": "all matrices, index arrays, bunches and selectors", "why_tests_cant": "all index arrays and selectors", "anchors": ["larch/data_services/h5/h5pod/idrc.py: H5PodRC, H5PodRCasCA", "larch/data_services/h5/h5pod/idga.py: H5PodGA", "larch/data_services/h5/h5pod/id0a.py: H5Pod0A", "larch/data_services/h5/h5pod/idcs.py: H5PodCS"]}
{"id": "C164", "title": "Reading the header of DBF files", "statement": "Opening a DBF file finds the number of records and every field in its order, with its name, type, length and decimals, as they are written in the file.", "quantifier": "all tables: any fields and records", "why_tests_cant": "all files; bytes at the limits of their range", "anchors": ["larch/data_services/dbf/dbf_reader.pyx: _readDBFFileHeader, DBF.__init__, DBF.fieldnames"]}
{"id": "C165", "title": "Loading records of DBF files", "statement": "load_dataframe(start, stop) gives exactly the records from start to before stop in their order, each field's column holding the number or text written in the record; loading by chunks gives the same rows, each once; without preserve_order only the order of columns differs; a first row out of range raises.", "quantifier": "all tables, bounds and chunk sizes", "why_tests_cant": "all files and bounds, also of more than 2 GB", "anchors": ["larch/data_services/dbf/dbf_reader.pyx: pull_record_data, get_dbf_int64, get_dbf_double_v2, get_dbf_string_v2, DBF.load_dataframe, DBF.load_dataframe_iter"]}
{"id": "C166", "title": "Stored matrices are labelled with their parameters", "statement": "After any history of edits, value changes and covariance calculations, covariance_matrix, robust_covariance_matrix and hessian_matrix give the numbers of the last calculation, each in the row and column of the two parameters it belongs to, or raise; without a calculation they are None; constrained_covariance_matrix gives the covariance under constraints.", "quantifier": "all histories, models and calculated matrices", "why_tests_cant": "all histories of edits between calculating and reading", "anchors": ["larch/model/parameter_frame.pyx: hessian_matrix, covariance_matrix, robust_covariance_matrix, constrained_covariance_matrix", "larch/model/abstract_model.pyx: calculate_parameter_covariance", "larch/model/model.py: remove_unused_parameters"]}
{"id": "C167", "title": "lock_values locks exactly the named parameters", "statement": "lock_values(*names, **values) locks each named parameter at its current value and each keyword's parameter at the value given (its null value for 'null'), changes no other parameter, and raises for an unknown name without changing the model.", "quantifier": "all frames, names and values", "why_tests_cant": "all frames and arguments", "anchors": ["larch/model/parameter_frame.pyx: lock_values, lock_value, get_value"]}
{"id": "C168", "title": "The vault is a mapping that keeps history", "statement": "After any history of vault[key] = value and del vault[key], a key is in the vault when it has been given values since it was last deleted; vault[key] is the last of them and the earlier ones can be read behind it; other keys are not affected; deleting an unknown key raises KeyError; iterating gives the keys put in; clear() empties the vault.", "quantifier": "all histories, keys and values", "why_tests_cant": "all histories and sets of keys", "anchors": ["larch/data_services/h5/h5vault.py: H5Vault.__setitem__, __getitem__, __contains__, __delitem__, wipe, keys, _get_item_or_older"]}
{"id": "C169", "title": "Data expressions mean what is written", "statement": "The value of a data expression on a frame is the value of the expression with each name standing for the column of that name, else the level of the index, else the function provided under it; a column named exactly as the text is returned as it is; with a second frame behind the first the columns of both can be used; a name known nowhere raises NameError.", "quantifier": "all expressions of Python's grammar (operators of any precedence, calls, attributes, indexes), all frames and values", "why_tests_cant": "all expressions and column names", "anchors": ["larch/util/dataframe.py: columnize, columnize_with_joinable_backing_2"]}
{"id": "C170", "title": "Selecting the cases of a Dataset", "statement": "ds.dc.query_cases(query) keeps exactly the cases for which the query is true, in their order, each with all its values by case, by case and alternative, and its idce rows.", "quantifier": "all datasets and queries", "why_tests_cant": "all datasets and selections", "anchors": ["larch/dataset/flow.py: query_cases, to_arrays", "larch/dataset/construct.py: from_idce"]}
{"id": "C171", "title": "Arrays saved with to_zarr are loaded back", "statement": "An array written with to_zarr(path) is given back by from_zarr(path), other files are unchanged, and an array without name or named like a coordinate is saved under a generic name.", "quantifier": "all arrays, paths and stores", "why_tests_cant": "all names and paths", "anchors": ["larch/dataset/__init__.py: to_zarr, from_zarr"]}
{"id": "C172", "title": "Shares by bins of a variable", "statement": "The tables of share_figure and distribution_on_idco_variable (style='dataframe') have for every bin the alternatives' parts of the weighted probabilities and choices of the cases whose value is in the interval that labels the row, and the weight of those cases; every case is counted in exactly one row; a number of bins, categories, excluded alternatives and nests are honoured.", "quantifier": "all cases, probabilities, choices, weights, bins", "why_tests_cant": "all data and bins, values on edges among them", "anchors": ["larch/util/figures.py: share_figure, distribution_on_idco_variable"]}
{"id": "C173", "title": "The numbers of distribution figures", "statement": "distribution_figure draws bars whose height is the density of modelled and observed choices in each bin, area one in all, at the place of their values; the coincidence ratio is between 0 and 1 and is 1 only for equal distributions; the net cumulative trend is the difference of what is modelled and observed up to there, named after the one ahead.", "quantifier": "all data, weights, bins and categories", "why_tests_cant": "all data and bins", "anchors": ["larch/util/figures.py: pseudo_bar_data, distribution_figure", "larch/util/histograms.py: seems_like_discrete_data"]}
{"id": "C174", "title": "The variables of an HDF5 pod", "statement": "After any history of add_array, add_blank, add_expression, delete_array, rename_vars and shape, whatever they raised, all variables of a pod have one shape, which is the one the pod gives, and distinct names. An array that is added is found under its name with its contents and no other variable changes; a refused one leaves the data as they were; an expression is evaluated on the variables as they were. A renaming puts each array under the name that the patterns give for its old name and never loses one.", "quantifier": "all histories of calls, all arrays, names, shapes, expressions and renaming patterns", "why_tests_cant": "all histories; names and orders of renaming matter", "anchors": ["larch/data_services/h5/h5pod/generic.py: H5Pod.rename_vars, shape, add_expression, add_array, add_blank, delete_array"]}
{"id": "C175", "title": "Reading tables out of SQLite", "statement": "Connection.read_data returns every row of a query in order, with every column under its name as doubles and, with index_col, the values of that column as labels; asked for a number of rows, the reader gives those rows and warns. SQLitePodCO.get_array returns the rows selected.", "quantifier": "all tables, queries, numbers of rows and selectors", "why_tests_cant": "all tables; the position of the index column and the number of rows vary", "anchors": ["larch/data_services/sqlite/sqlite_arrays.pyx: _sqlite_array_2d_float64, _rip_array_idco, SQLitePodCO", "larch/data_services/sqlite/__init__.py: Connection.read_data"]}
{"id": "C176", "title": "Bounded kernel densities are densities", "statement": "BoundedKDE evaluates to a function that is nowhere negative, zero outside of its bounds (by default the least and greatest value) and of area one; its default bandwidth comes from the weighted sample standard deviation of the data in use.", "quantifier": "all data, weights, kernels, bandwidths and bounds", "why_tests_cant": "an integral over all points, for all data", "anchors": ["larch/util/bounded_kde.py: BoundedKDE, weighted_sample_std"]}
{"id": "C177", "title": "Statistics of an idca variable", "statement": "idca_statistics gives for each alternative the frequencies (all, and chosen) of its values by bins, drawn at the place of their bins, adding up to the weight of the cases that have it; means and deviations of the values of the cases that have it; and scales the density of chosen cases by their share.", "quantifier": "all data, weights, availabilities, numbers of bins and resolutions", "why_tests_cant": "all data and bins", "anchors": ["larch/datastats.py: idca_statistics_data"]}
{"id": "C178", "title": "A data service answers a request with the data asked for", "statement": "DataService.make_dataframes gives a DataFrames with a row for each selected case (and alternative), in order, with the values of the expressions asked for, choices from the expression, expressions or code asked for (0 for alternatives without one), weights and availability of the same cases, and nothing that is not asked for; an expression that cannot be read is an error.", "quantifier": "all services, requests and selectors", "why_tests_cant": "all combinations of request keys, selectors and orders of codes", "anchors": ["larch/data_services/service.py: DataService.make_dataframes, validate_dataservice"]}
{"id": "C179", "title": "A stacked pod gives the data its latest bunches name for the latest alternatives", "statement": "Reading bunches from an H5PodCS gives, for each name asked and each alternative in the order last set, the data that the latest definition of the bunch names for the alternative and zero if it names none; unknown names, unset alternatives and definitions that are no dictionary raise. A pod with storage keeps the definition as it was when given, one without as it is when read.", "quantifier": "all histories of setting alternatives and bunches (and of changes by the caller to the objects given), all names and data", "why_tests_cant": "histories, aliasing and expressions are unbounded", "anchors": ["larch/data_services/h5/h5pod/idcs.py: H5PodCS"]}
{"id": "C180", "title": "Names made into identifiers", "statement": "make_valid_identifier gives a Python identifier that is no keyword, leaves identifiers as they are, and keeps letters and digits in order, so that names which differ in them stay apart; columns of tables get these names in order.", "quantifier": "all texts and lists of column labels", "why_tests_cant": "all strings", "anchors": ["larch/util/naming.py: make_valid_identifier, valid_identifier_or_parenthized_string", "larch/data_services/h5/h5pod/idce.py: from_dataframe, from_csv", "larch/data_services/h5/h5pod/idco.py: from_csv, from_excel"]}
{"id": "C181", "title": "A table of counts and shares adds up", "statement": "counts_and_shares shows for each row and column category with records, in the order of the categories, the number of records, the totals of rows, columns and all, each column's part of all, and the share of each row in its column; the shares of a column make one.", "quantifier": "all category lists and records", "why_tests_cant": "all data", "anchors": ["larch/util/dataframe.py: counts_and_shares"]}
{"id": "C182", "title": "A container made of one frame of rows holds the frame", "statement": "DataFrames.from_idce gives a container with the rows of the frame in order, its columns but the choice (or those asked for), the choice of each case and alternative (zero without a row), and with crack the columns constant within each case as data of the cases.", "quantifier": "all frames, choices, column lists, with and without crack", "why_tests_cant": "all frames and orders of rows", "anchors": ["larch/dataframes.pyx: DataFrames.from_idce, crack_idca"]}
{"id": "C183", "title": "Pods made from pods, and data copied into pods, hold the same values", "statement": "fatten gives each alternative the value of the case, flatten and reshape_to keep the values in order (and undo each other), copy_external_data copies the columns asked for with dictionary and source, pluck_from_omx takes the value at the row and column of each case; names are filtered by the patterns given, and no variable that is there is changed.", "quantifier": "all pods, sizes, patterns, names, matrices and index arrays", "why_tests_cant": "all data and names", "anchors": ["larch/data_services/h5/h5pod/idco.py: H5PodCO.fatten, reshape_to, copy_external_data, pluck_from_omx", "larch/data_services/h5/h5pod/idca.py: H5PodCA.flatten", "larch/data_services/h5/h5pod/generic.py: add_array"]}
{"id": "C184", "title": "The bars of a histogram show the data", "statement": "Each bar of histogram_data is the weight of the finite entries of its bin (zeros left out, and marked, if they are more than the threshold); without limits the bars have all the weight; with a fixed range they have that between the limits, and the parts under, shown and over make one; densities have an area of one; discrete data have a bar for each distinct value, and are recognised by having fewer than six.", "quantifier": "all data, weights, ranges, limits and numbers of bins", "why_tests_cant": "all real data", "anchors": ["larch/util/histograms.py: robust_min_max, fixed_min_max, get_histogram_bins, histogram_data, histogram_figure, seems_like_discrete_data"]}
{"id": "C185", "title": "A table becomes idce rows, names belong to codes, the simple model has each column", "statement": "array_to_ce gives every row of the idce data the value that the array has for its case and alternative; set_alternative_names gives each alternative the name the mapping has for it, or its code as text, or the name in its place of a sequence; make_mnl has a term for each column of the idca data for every alternative and for each column of the idco data for all but the first.", "quantifier": "all idce data, arrays, codes, names and columns", "why_tests_cant": "all tables, and sets of rows", "anchors": ["larch/dataframes.pyx: DataFrames.array_to_ce, set_alternative_names, alternatives, alternative_pairs, make_mnl"]}
{"id": "C186", "title": "Headers of text tables, and how much has been read", "statement": "interpret_header_name turns a header into a name, a space and a type: TEXT for the prefix @, INTEGER for #, NUMERIC otherwise; the name has no dots, is not 'case' or 'group', and without dots and prefix it is not a keyword of the database; ordinary headers are kept; bytesread shows the number of bytes in the largest unit that it exceeds; progress shows the percentage of the file that has been read.", "quantifier": "all headers, positions and sizes", "why_tests_cant": "all strings and numbers", "anchors": ["larch/util/smartread.py: interpret_header_name, SmartFileReader.percentread, bytesread, progress"]}
{"id": "C187", "title": "One-hot columns of a frame", "statement": "categorical_expansion of a series or a column of a frame gives a column for each distinct value, in order, with ones exactly in the rows that have it; in place, the columns are added to the frame and the others keep their values; categorical_compression of the result gives each row the label of its value.", "quantifier": "all frames, columns and values", "why_tests_cant": "all data", "anchors": ["larch/util/data_expansion.py: to_categorical, categorical_expansion, categorical_compression", "larch/dataframes.pyx: categorical_expansion"]}
{"id": "C188", "title": "The data works with the values of the parameter frame", "statement": "After any history of setters, of batches of updates that end without exceptions, and of evaluations outside of batches, the values that the attached data works with are those of the parameter frame when no batch is open; while a batch is open setters do not reach the data; an evaluation always uses the values and flags of the frame.", "quantifier": "all histories of setters, batches, evaluations and attachments of data", "why_tests_cant": "all histories", "anchors": ["larch/model/parameter_frame.pyx: _check_if_frame_values_changed, batch_update", "larch/model/controller.pyx: _frame_values_have_changed, set_dataframes"]}
{"id": "C189", "title": "The data a pod gives for an expression are the values of the expression at the cases", "statement": "Loading an expression over the variables of an HDF5 pod, with any selector, gives the values of the expression at the selected cases in the order of the selection, whether or not the file library takes the selector itself; in and not in mean membership case by case; pod[texts, slice] has a column for each text; in a group of pods a name is the variable of the first pod that has it; a name that is not stored raises.", "quantifier": "all expressions, pods, selectors and groups of pods", "why_tests_cant": "all expressions and selectors", "anchors": ["larch/data_services/h5/h5pod/generic.py: _evaluate_single_item, load_data_item, __getitem__", "larch/data_services/h5/h5podgroup.py: H5PodGroup", "larch/util/aster.py: AstWrapper, inXd"]}
{"id": "C190", "title": "Nothing written to a workbook overwrites anything, and the table of contents is right", "statement": "Whatever tables and pictures are added to a new workbook, in whatever order, to whatever sheets, with or without headings and blurbs, every addition succeeds; on each sheet contents come one below the other and nothing is overwritten; every body is there in full, in order; tables and figures are numbered in order, and each entry of the table of contents names a caption with the sheet and row where it is.", "quantifier": "all histories of additions", "why_tests_cant": "all histories, sizes and names of sheets", "anchors": ["larch/util/excel.py: ExcelWriter.add_content_tab, add_worksheet, _add_toc_entry, NumberedCaptions"]}
{"id": "C191", "title": "Objects embedded in a workbook are read back", "statement": "Objects embedded in a workbook under different keys are read back as they were, by key and all together, and other keys are not found; of several objects under a key the last is given when all are read.", "quantifier": "all sequences of embedded objects of any length", "why_tests_cant": "all lengths of the pickled text, all sequences of keys", "anchors": ["larch/util/excel.py: ExcelWriter.add_metadata, load_metadata"]}
{"id": "C192", "title": "A nested dict is written to a sheet as its outline", "statement": "However deep dicts and sequences are nested, the cells are the outline of the content in reading order, each key and value in the column of its depth, to the right of what contains it; no two are put in the same cell and the rest is blank.", "quantifier": "all nested contents", "why_tests_cant": "all depths and shapes of nesting", "anchors": ["larch/util/excel.py: ExcelWriter.add_content_tab (unpacker)"]}
{"id": "C193", "title": "Matrix files made from other matrix files hold their cells", "statement": "When what is asked for is there and fits, change_cols gives a file where the picked columns of each matrix and the picked entries of each column lookup are at the new places, the other places are zero (or what the file held), the row lookups are copied and nothing else changes; import_omx adds each named matrix, or the picked part of it, as it is in the other file; change_atom_type converts each cell and leaves no other array changed; rlookup pairs each position with its label.", "quantifier": "all files, names, shapes and slicers", "why_tests_cant": "all shapes, contents and selections", "anchors": ["larch/omx.py: OMX.change_cols, import_omx, change_atom_type, get_reverse_lookup"]}
{"id": "C194", "title": "Households and persons become the cases of the activity pattern models", "statement": "If every household is listed once and has one person for each rank up to its size, the tables made are those of the sizes that occur; each household is in the table of its size (five for larger ones) and no other, once; the columns of a rank hold the data of the person with that rank; the choice of a household is the code of the pattern made of its persons' activities in the order of ranks; all five models can be made exactly if all five sizes occur.", "quantifier": "all tables of households and persons, of any size", "why_tests_cant": "all surveys, sizes and orders of rows", "anchors": ["larch/util/activitysim/cdap.py: cdap_split_data, cdap_dataframes, cdap_model"]}
{"id": "C195", "title": "The name of a systematic alternative says which alternative it is", "statement": "The name of an alternative is its own values at every level in order, each followed by a dash, and its number among the repeats; the name of a nest is the values up to its level and placeholders after that; with dash-free distinct texts two rows have one name exactly when they are the same alternative; places past the last category are called +k. Every last copy (with no repeats: every alternative) violates this: it carries the name of the next category.", "quantifier": "all frames, levels, paddings, ways of writing values as texts, rows", "why_tests_cant": "all frames and codes", "anchors": ["larch/model/systematic_alternatives.py: SystematicAlternatives.alternative_name_from_code, altnames, new_alternative_codes, magic_nesting"]}
{"id": "C196", "title": "Dissolving the labels of a dimension keeps what is selected, and counting values counts them", "statement": "If the labels of a dimension are unique and all values of a variable are among them, dissolving replaces each value by the position of its label, so that selecting by position gives what selecting by label gave; only the named variables change. value_counts lists the values that occur in increasing order with the number of places that have them, which add up to the size.", "quantifier": "all lists of labels, variables, values and data along the dimension", "why_tests_cant": "all labels and values", "anchors": ["larch/dataset/flow.py: dissolve_coords", "larch/dataset/__init__.py: value_counts"]}
{"id": "C197", "title": "Reading a table with spanning cells puts every cell where HTML puts it", "statement": "For a table without blank rows in which no cell spans both ways, the columns of the cells are those of the rule of HTML (every cell, in order, in the first column not taken by a cell from above); the table can be read exactly if that stays within as many columns as the longest row has cells; every text is in its place and nothing anywhere else.", "quantifier": "all tables, texts and spans", "why_tests_cant": "all tables", "anchors": ["larch/util/html_table_to_txt.py: html_tables.read"]}
{"id": "C198", "title": "A duration in the log adds up and is in the usual form", "statement": "The days, hours, minutes and seconds written for any duration add up to it to the nearest hundredth of a second; each unit is at most once, none is zero, the larger first, hours are below 24, minutes and seconds below 60; a longer duration is never written as a shorter one; the short text is one number in the largest unit reached, to the nearest hundredth of it. The splits of a timed block add up to its duration.", "quantifier": "all durations, all lists of split times", "why_tests_cant": "all durations and clock readings", "anchors": ["larch/util/timesize.py: timesize_single, timesize_stack, Seconds", "larch/log/normal.py: TimingLog"]}
{"id": "C199", "title": "Shortened paths keep the file name and grids keep their texts in columns", "statement": "A path that fits is shown unchanged; another is shown as a dot sign and as many of its last parts as fit, at least the whole file name, and is not longer than the path. Rows of texts with the same number of columns become lines of one length in which every text stands in its column, which is as wide as its longest text.", "quantifier": "all paths and lengths, all rows of texts", "why_tests_cant": "all paths and tables", "anchors": ["larch/util/text_manip.py: truncate_path_for_display, grid_str, max_len"]}
{"id": "C200", "title": "The names suggested for a wrong name are the most similar ones", "statement": "The names returned are possibilities that are similar enough, n of them or all, the most similar first, and no other possibility is more similar than one of them, each name once; a possibility that is the word up to case and accents is among them; wrong arguments are refused.", "quantifier": "all words, lists of possibilities, numbers and cutoffs, any measure of similarity with the bounds of difflib", "why_tests_cant": "all lists and similarities", "anchors": ["larch/util/text_manip.py: case_insensitive_close_matches"]}
{"id": "C201", "title": "Applying a prelearner gives every row the utility of its own inputs", "statement": "After applying a prelearner every row of the alternatives has in the output column the logarithm of the prediction for its own inputs, the values of the row followed by those of its case; a missing value is treated as zero; all other columns, the rows and their order are unchanged; applying it again changes nothing if the output is not an input; a case that is not in the table of the cases is refused.", "quantifier": "all tables, lists of columns or expressions, and classifiers", "why_tests_cant": "all tables and classifiers", "anchors": ["larch/prelearning.py: Prelearner.apply, filter_ca_columns, filter_and_join_columns"]}
{"id": "C202", "title": "Pictures that differ are reported and trimming keeps what stands out", "statement": "The comparison of two pictures of the same size finds no mismatch exactly if they are the same, counts the blocks in which they differ, and a larger tolerance makes it less sensitive; trimming gives the smallest rectangle with every place that differs clearly from the corner, values unchanged.", "quantifier": "all pictures and tolerances", "why_tests_cant": "all pictures, sizes and tolerances", "anchors": ["larch/util/visual_processing.py: _process_region, diff_images, trim_uniform_border"]}
{"id": "C203", "title": "A watched dictionary behaves as a dictionary and tells of every read and change", "statement": "A dictionary with callbacks holds and gives what a plain dictionary would; each read, write and deletion that succeeds is told to its callback once, after it happened, and none that fails; so whoever hears the notifications knows the content after any history of calls; a copy can be taken.", "quantifier": "all initial contents, histories of calls, and callbacks, which may raise", "why_tests_cant": "all histories and callbacks", "anchors": ["larch/util/signal_dict.py: SignalDict"]}
{"id": "C204", "title": "Dictionaries of strings keep strings", "statement": "A dictionary of strings, as for renaming parameters, treats keys and values as their texts: what is set under a key is found, as a text, by every call under any key of the same text; all keys and values are texts after any history of calls; a copy has the same entries in the same order.", "quantifier": "all initial items and histories of calls", "why_tests_cant": "all items, keys and histories", "anchors": ["larch/roles.py: DictOfStrings", "larch/util/touch_notifier.py: TouchNotify"]}
{"id": "C205", "title": "The log goes where it was asked to, once", "statement": "After any calls asking for the log on the console and in files, with any levels, every message of the level asked for and above is written once to each place asked for and to no other; a call for a place that is there already is without effect.", "quantifier": "all histories of calls, names of files and levels", "why_tests_cant": "all histories and levels", "anchors": ["larch/log/normal.py: log_to_console, log_to_file", "larch/log/verbose.py: log_to_console, log_to_file"]}
{"id": "C206", "title": "Copies in the temporary directory overwrite nothing", "statement": "A copy in the common temporary directory has the name of its source, or, if that is taken, the first free name with a number before the ending; it has the content of the source; no file that is there, from an earlier copy or otherwise, is overwritten.", "quantifier": "all contents of the directory and sequences of copies", "why_tests_cant": "all names, directories and histories", "anchors": ["larch/util/temporaryfile.py: TemporaryCopy, TemporaryDirectory"]}
{"id": "C207", "title": "The code of an example is taken out of its document exactly", "statement": "From a document of texts and blocks of code exactly the lines of code are taken, in order, with the indentation taken off; blank lines make no difference.", "quantifier": "all documents", "why_tests_cant": "all documents", "anchors": ["larch/examples/__init__.py: _testcode_iter, example"]}
