{
 "claims": [
  {
   "property": "C01",
   "status": "partial",
   "theorems": [
    "Larch.Props.C01_probabilities_form_distribution",
    "Larch.Props.C01_fails_sparse_unavailable_row"
   ],
   "note": "Proved for every nesting tree, term list, parameter vector and dense case with finite data and an available alternative. False in the code for sparse rows flagged unavailable (C01_fails_sparse_unavailable_row)."
  },
  {
   "property": "C02",
   "status": "partial",
   "theorems": [
    "Larch.Props.C02_unavailable_zero",
    "Larch.Props.C02_available_positive",
    "Larch.Props.C02_unavailable_data_irrelevant",
    "Larch.Props.C02_fails_sparse_unavailable_row"
   ],
   "note": "Zero probability proved unconditionally; positivity and irrelevance of unavailable data for dense data; false for sparse rows flagged unavailable."
  },
  {
   "property": "C03",
   "status": "proved",
   "theorems": [
    "Larch.Props.C03_logsum_exact",
    "Larch.Props.C03_translation",
    "Larch.Props.C03_fails_mu_zero"
   ],
   "note": "For non-zero logsum parameters; C03_fails_mu_zero records that a zero logsum parameter below the root gives a wrong (zero) nest utility in the numba kernel."
  },
  {
   "property": "C04",
   "status": "proved",
   "theorems": [
    "Larch.Props.C04_loglike",
    "Larch.Props.C04_chosen_unavailable"
   ],
   "note": ""
  },
  {
   "property": "C05",
   "status": "partial",
   "theorems": [
    "Larch.Props.C05_gradient_is_derivative_partial",
    "Larch.Props.C05_fails_shared_logsum",
    "Larch.Props.C05_fails_root_logsum",
    "Larch.Props.C05_fails_duplicate_quantity"
   ],
   "note": "HasDerivAt proved for every tree, term list, parameter vector and dense case provided logsum parameters are distinct along every root path and separate from the utility parameters, and no repeated quantity parameter. The three excluded situations are proved to be wrong in the code."
  },
  {
   "property": "C06",
   "status": "partial",
   "theorems": [
    "Larch.Props.C06_bhhh_outer_product_partial",
    "Larch.Props.C06_bhhh_symmetric_psd",
    "Larch.Props.C06_fails_duplicate_quantity"
   ],
   "note": "Symmetric and positive semidefinite: proved for all. Outer product of derivatives: proved under the hypotheses of C05. Violated outside: a parameter used in two quantity terms gets an entry although the probabilities do not depend on it."
  },
  {
   "property": "C07",
   "status": "partial",
   "theorems": [
    "Larch.Props.C07_holdfast_zero_partial",
    "Larch.Props.C07_holdfast_local",
    "Larch.Props.C07_fails_logsum"
   ],
   "note": "Proved for utility and quantity parameters; false for a held-fast logsum parameter (C07_fails_logsum)."
  },
  {
   "property": "C08",
   "status": "partial",
   "theorems": [
    "Larch.Props.C08_utility_declared",
    "Larch.Props.C08_term_order",
    "Larch.Props.C08_utility_gradient_partial",
    "Larch.Props.C08_fails_duplicate_quantity"
   ],
   "note": "Value proved in full; the derivative is wrong in the code when one parameter occurs in two quantity terms."
  },
  {
   "property": "C09",
   "status": "partial",
   "theorems": [
    "Larch.Props.C09_sparse_eq_dense",
    "Larch.Props.C09_fails_unsorted"
   ],
   "note": "Proved for ascending rows; false for rows out of order, which nothing in the loader excludes."
  },
  {
   "property": "C10",
   "status": "partial",
   "theorems": [
    "Larch.Props.C10_dense_partial",
    "Larch.Props.C10_bool_partial",
    "Larch.Props.C10_every_row_has_case",
    "Larch.Props.C10_case_indexes",
    "Larch.Props.C10_fails_empty_case"
   ],
   "note": "Proved when no case after the first is empty; false otherwise (C10_fails_empty_case). case_ptr_to_indexes proved with empty cases."
  },
  {
   "property": "C100",
   "status": "partial",
   "theorems": [
    "Larch.Props.C100_cases",
    "Larch.Props.C100_frames",
    "Larch.Props.C100_weights",
    "Larch.Props.C100_none",
    "Larch.Props.C100_alternatives",
    "Larch.Props.C100_read",
    "Larch.Props.C100_succeeds",
    "Larch.Props.C100_normalization",
    "Larch.Props.C100_fails_missing",
    "Larch.Props.C100_fails_unused_alternative"
   ],
   "note": "False for rows of alternatives that are missing in all columns: they are dropped and idca data turn into idce (C100_fails_missing); and a container with an alternative that has no rows cannot be selected from at all (C100_fails_unused_alternative). Everything else is proved for all containers and conditions."
  },
  {
   "property": "C101",
   "status": "partial",
   "theorems": [
    "Larch.Props.C101_in_bounds",
    "Larch.Props.C101_numba_utility_partial",
    "Larch.Props.C101_numba_gradient_partial",
    "Larch.Props.C101_compiled_utility_partial",
    "Larch.Props.C101_resolves_partial",
    "Larch.Props.C101_fails_idce",
    "Larch.Props.C101_fails_both",
    "Larch.Props.C101_fails_constants",
    "Larch.Props.C101_fails_rename",
    "Larch.Props.C101_fails_scale_alone"
   ],
   "note": "Proved for both engines: positions in bounds and correct, utilities equal the specification on named values, gradient by name (numba), and that linking succeeds after the scan. False (with witnesses): sparse idce data in the numba engine, data_ca and data_ce together in the compiled engine, constants-only case utilities without case data are refused, rename_parameters, quantity_scale without quantities."
  },
  {
   "property": "C102",
   "status": "partial",
   "theorems": [
    "Larch.Props.C102_compiled_partial",
    "Larch.Props.C102_numba_partial",
    "Larch.Props.C102_compiled_utility_partial",
    "Larch.Props.C102_numba_utility_partial",
    "Larch.Props.C102_fails_shared",
    "Larch.Props.C102_fails_after_error",
    "Larch.Props.C102_fails_columns"
   ],
   "note": "Compiled engine: proved for all histories in which each DataFrames belongs to one model and no assignment of data raised; false when two models share a DataFrames (the first silently uses the values and positions of the second) and after a failed assignment. Numba engine: proved for all histories with any sharing as long as a model is only given data with the same labels; false when new data has another column order (stored positions are not discarded)."
  },
  {
   "property": "C103",
   "status": "partial",
   "theorems": [
    "Larch.Props.C103_shape",
    "Larch.Props.C103_accuracy",
    "Larch.Props.C103_limit",
    "Larch.Props.C103_quadratic",
    "Larch.Props.C103_holdfast",
    "Larch.Props.C103_at_x",
    "Larch.Props.C103_covariance",
    "Larch.Props.C103_restores_partial",
    "Larch.Props.C103_check",
    "Larch.Props.C103_fails_restore",
    "Larch.Props.C103_fails_robust",
    "Larch.Props.C103_fails_nan",
    "Larch.Props.C103_fails_symmetric"
   ],
   "note": "Accuracy, consistency, exactness for quadratics, held-fast rows and columns and check_d_loglike proved for every gradient. Violations proved: the last parameter stays moved by the increment (so also after estimate()), the BHHH matrix of the robust covariance is taken at the moved point, a NaN gradient becomes a number, the matrix is not symmetric. No infinities, exact arithmetic."
  },
  {
   "property": "C104",
   "status": "partial",
   "theorems": [
    "Larch.Props.C104_passes_partial",
    "Larch.Props.C104_accepts",
    "Larch.Props.C104_fails_nan",
    "Larch.Props.C104_fails_zero"
   ],
   "note": "Both directions proved for entries without NaN; NaN entries are skipped by the minimum (C104_fails_nan), and a correct all-zero gradient is rejected with skip_zeros (C104_fails_zero)."
  },
  {
   "property": "C105",
   "status": "partial",
   "theorems": [
    "Larch.Props.C105_value",
    "Larch.Props.C105_value_at",
    "Larch.Props.C105_repeatable",
    "Larch.Props.C105_no_penalty_partial",
    "Larch.Props.C105_status_partial",
    "Larch.Props.C105_fails_bhhh",
    "Larch.Props.C105_fails_actual"
   ],
   "note": "History independence is proved in full. Violations: switching penalties on replaces the weighted outer products by outer products of weighted gradients, so the BHHH matrix of weighted data changes even where penalty and gradient vanish; the actual log likelihood reported by fit_bhhh subtracts the penalty of one case only. The fallback for work arrays of a wrong shape is not modelled."
  },
  {
   "property": "C106",
   "status": "partial",
   "theorems": [
    "Larch.Props.C106_crop",
    "Larch.Props.C106_valid_partial",
    "Larch.Props.C106_matrices",
    "Larch.Props.C106_raise",
    "Larch.Props.C106_add_read",
    "Larch.Props.C106_add_lookup_read",
    "Larch.Props.C106_getitem",
    "Larch.Props.C106_add_shape",
    "Larch.Props.C106_no_overwrite",
    "Larch.Props.C106_from_frame",
    "Larch.Props.C106_fails_no_rows",
    "Larch.Props.C106_fails_first_matrix",
    "Larch.Props.C106_fails_first_lookup",
    "Larch.Props.C106_fails_setshape",
    "Larch.Props.C106_fails_crop",
    "Larch.Props.C106_fails_both"
   ],
   "note": "Validity proved for every history of statements that respect the shape (failing ones included), for matrices alone for every history without crop or switched-off checks; read-back, refusal, no-overwrite and crop proved. Violations proved: the first matrix resets a shape that lookups depend on, the first lookups may have any length, the shape setter ignores lookups and silently ignores a change of one dimension, crop raises half-way for lookups along the second dimension, a lookup may take a matrix's name and hide both. Two dimensions; atoms and the file system not modelled."
  },
  {
   "property": "C107",
   "status": "partial",
   "theorems": [
    "Larch.Props.C107_import",
    "Larch.Props.C107_chunks",
    "Larch.Props.C107_import3d_partial",
    "Larch.Props.C107_fails_3d",
    "Larch.Props.C107_lookups_zone",
    "Larch.Props.C107_lookups_order_partial",
    "Larch.Props.C107_fails_order"
   ],
   "note": "import_datatable and lookups by zone proved for every table and chunking (rows in range). Violations proved: import_datatable_3d zeroes the other cells of an existing matrix; lookups without zone numbers are wrong as soon as there are two chunks. Negative positions (which numpy wraps) are outside the model."
  },
  {
   "property": "C108",
   "status": "partial",
   "theorems": [
    "Larch.Props.C108_given",
    "Larch.Props.C108_series",
    "Larch.Props.C108_arrays",
    "Larch.Props.C108_int",
    "Larch.Props.C108_fails_rc",
    "Larch.Props.C108_fails_list",
    "Larch.Props.C108_join_partial",
    "Larch.Props.C108_fails_join"
   ],
   "note": "Cells and labels proved for arrays, Series, integers and given indexes; joins for distinct labels. Violations proved: index='rc' always raises, Python lists without an index raise, repeated labels multiply rows in joins."
  },
  {
   "property": "C109",
   "status": "partial",
   "theorems": [
    "Larch.Props.C109_ogev_partial",
    "Larch.Props.C109_nested_partial",
    "Larch.Props.C109_share_partial",
    "Larch.Props.C109_defined",
    "Larch.Props.C109_fails"
   ],
   "note": "Proved for every frame whose largest within-case counter is not a power of two (edges, nodes, parameters, tree shape, descendants, common parents, when the call raises). Violation proved for every other frame with padding at least 1: some alternative becomes a child of itself - in particular all frames without repeated combinations in a case."
  },
  {
   "property": "C11",
   "status": "partial",
   "theorems": [
    "Larch.Props.C11_dissolve_partial",
    "Larch.Props.C11_fails_empty_case",
    "Larch.Props.C11_fails_nan"
   ],
   "note": "Proved for NaN-free data without empty cases after the first; false otherwise."
  },
  {
   "property": "C110",
   "status": "partial",
   "theorems": [
    "Larch.Props.C110_plain",
    "Larch.Props.C110_defined",
    "Larch.Props.C110_recode_partial",
    "Larch.Props.C110_fails",
    "Larch.Props.C110_multi",
    "Larch.Props.C110_multi_defined",
    "Larch.Props.C110_fails_altcodes",
    "Larch.Props.C110_multi_masks"
   ],
   "note": "Consistency proved when both frames need the same number of counter bits, and always for a list of frames (codes, masks, when it raises). Violations proved: with different numbers of bits every test row gets a code different from its training row; the returned description of a list of frames holds only the alternatives of the last frame."
  },
  {
   "property": "C111",
   "status": "partial",
   "theorems": [
    "Larch.Props.C111_fresh",
    "Larch.Props.C111_first",
    "Larch.Props.C111_last",
    "Larch.Props.C111_fails"
   ],
   "note": "Proved for one frame and for the last of a list. Violation proved: a column of an earlier frame can be overwritten."
  },
  {
   "property": "C112",
   "status": "partial",
   "theorems": [
    "Larch.Props.C112_reported_partial",
    "Larch.Props.C112_item",
    "Larch.Props.C112_named",
    "Larch.Props.C112_fails_zero",
    "Larch.Props.C112_fails_empty",
    "Larch.Props.C112_fails_stale",
    "Larch.Props.C112_recorded"
   ],
   "note": "Proved for symmetric matrices and any correct eigenvalue routine: items are flat directions naming the right parameters; something is reported iff there is one, provided every free parameter occurs in the matrix. Violations proved: a parameter on which the log likelihood does not depend at all is never reported (zero columns are treated as held fast), and a calculation that finds nothing leaves the earlier report."
  },
  {
   "property": "C113",
   "status": "partial",
   "theorems": [
    "Larch.Props.C113_unconstrained",
    "Larch.Props.C113_identified",
    "Larch.Props.C113_constrained",
    "Larch.Props.C113_not_greater",
    "Larch.Props.C113_pinned",
    "Larch.Props.C113_holdfast",
    "Larch.Props.C113_fails_holdfast",
    "Larch.Props.C113_fails_pinned_null",
    "Larch.Props.C113_notes",
    "Larch.Props.C113_current",
    "Larch.Props.C113_robust",
    "Larch.Props.C113_fails_stale"
   ],
   "note": "Statistics proved for all matrices, constraints and histories (t up to 100000 for parameters of binding constraints). Violations proved: without constraints and bounds a held-fast parameter has standard error 0 and an infinite t statistic; a parameter pinned at its null value keeps standard error 0; notes of an earlier calculation stay. Exact arithmetic."
  },
  {
   "property": "C114",
   "status": "proved",
   "theorems": [
    "Larch.Props.C114_t",
    "Larch.Props.C114_ratio",
    "Larch.Props.C114_none",
    "Larch.Props.C114_agree",
    "Larch.Props.C114_monotone"
   ],
   "note": "All values, including infinities, NaN and missing columns. Formatting of the numbers is not modelled."
  },
  {
   "property": "C115",
   "status": "partial",
   "theorems": [
    "Larch.Props.C115_shows_value",
    "Larch.Props.C115_reads_back_partial",
    "Larch.Props.C115_evaluation_unique",
    "Larch.Props.C115_reference_text_partial",
    "Larch.Props.C115_fails_single_parameter",
    "Larch.Props.C115_fails_zero_term",
    "Larch.Props.C115_fails_unit_text",
    "Larch.Props.C115_fails_quote"
   ],
   "note": "Value: proved for every non-empty function. Reading back: proved for terms that are not zero and whose unit data is written 1 (reading back is partial because the code violates it otherwise). Violations: a function that is a single parameter prints as P.a, which cannot be assigned to utility_ca (TypeError: the characters of the string are not terms); zero terms vanish; data '1.0' comes back as '1'; names with quotes are not escaped so the text cannot be read. Backslashes and line breaks in names are excluded."
  },
  {
   "property": "C116",
   "status": "partial",
   "theorems": [
    "Larch.Props.C116_rows_value",
    "Larch.Props.C116_rows_numbered",
    "Larch.Props.C116_table",
    "Larch.Props.C116_table_star",
    "Larch.Props.C116_html_value_partial",
    "Larch.Props.C116_fails_html_quantity"
   ],
   "note": "The frame is right for all models. The HTML table is right when no quantity term has a scale; otherwise it writes exp(P * scale) * X while exp(P) * scale * X is computed (C116_fails_html_quantity). resolve_parameters=True (values instead of names) and tooltips markup are not modelled."
  },
  {
   "property": "C117",
   "status": "partial",
   "theorems": [
    "Larch.Props.C117_utility_ca_partial",
    "Larch.Props.C117_quantity_partial",
    "Larch.Props.C117_utility_co_partial",
    "Larch.Props.C117_nest_parameter_partial",
    "Larch.Props.C117_fails_nests",
    "Larch.Props.C117_fails_codes",
    "Larch.Props.C117_fails_order"
   ],
   "note": "Changes of utility_ca, of one alternative's utility, of quantity_ca and of nest parameters change the digested text (for functions recoverable from their text, C115). Violations: which nodes the edges of the tree connect and the codes of the nodes are not digested, so moving alternatives between nests leaves the hash unchanged; the order in which utilities were given changes it. The remaining attributes (choice, availability, weight) enter as given texts; hash collisions of blake2b are outside the model."
  },
  {
   "property": "C118",
   "status": "partial",
   "theorems": [
    "Larch.Props.C118_pods_agree",
    "Larch.Props.C118_accepted_iff",
    "Larch.Props.C118_accepted_in",
    "Larch.Props.C118_appended_last",
    "Larch.Props.C118_service_cases",
    "Larch.Props.C118_other_cases_refused",
    "Larch.Props.C118_added_pod_found",
    "Larch.Props.C118_reset_pulls",
    "Larch.Props.C118_fails_refused_pod_stays",
    "Larch.Props.C118_fails_set_alternatives_not_passed_on",
    "Larch.Props.C118_fails_same_identifier"
   ],
   "note": "The invariants hold for all histories. Violated: a pod refused for its shape over the alternatives stays in the case data; set_alternatives does not reach the list of pods; two pods of one identifier."
  },
  {
   "property": "C119",
   "status": "partial",
   "theorems": [
    "Larch.Props.C119_items_denote",
    "Larch.Props.C119_load_denotes",
    "Larch.Props.C119_reload_is_full",
    "Larch.Props.C119_fails_given_array_keeps_nan",
    "Larch.Props.C119_fails_list_of_names",
    "Larch.Props.C119_fails_reload_after_a_name_is_gone"
   ],
   "note": "Reading and reloading proved for all pods and expressions. Violated: the array given keeps NaN; lists of names raise although documented; a reload after a pod lost a name keeps old data."
  },
  {
   "property": "C12",
   "status": "partial",
   "theorems": [
    "Larch.Props.C12_valid",
    "Larch.Props.C12_rooted_partial",
    "Larch.Props.C12_reachable_partial",
    "Larch.Props.C12_fails_edge_from_new_node",
    "Larch.Props.C12_fails_no_parents",
    "Larch.Props.C12_fails_remove_root"
   ],
   "note": "Any history of calls keeps the graph well formed; every node keeps a parent (and is reachable from the root when acyclic) for histories of polite calls. The full statement is false of the code: add_edge from a code not yet in the graph, add_node(parents=[]) and remove_node(root) leave nodes without parent."
  },
  {
   "property": "C120",
   "status": "partial",
   "theorems": [
    "Larch.Props.C120_reserved_rows",
    "Larch.Props.C120_reads_selected",
    "Larch.Props.C120_frame_co",
    "Larch.Props.C120_frame_ca",
    "Larch.Props.C120_selector_text",
    "Larch.Props.C120_selector_several",
    "Larch.Props.C120_fails_refused_selector_clears",
    "Larch.Props.C120_fails_slice_as_default",
    "Larch.Props.C120_fails_empty_selector",
    "Larch.Props.C120_fails_single_case",
    "Larch.Props.C120_fails_selector_at_construction",
    "Larch.Props.C120_fails_no_case_selected"
   ],
   "note": "Reading with a selector proved for all selectors. Violated: a refused selector clears the old one; slices are refused as default; an empty list of positions selects all; one case; selector given to the constructor; empty frames of data of the alternatives."
  },
  {
   "property": "C121",
   "status": "partial",
   "theorems": [
    "Larch.Props.C121_expression",
    "Larch.Props.C121_linear",
    "Larch.Props.C121_written",
    "Larch.Props.C121_missing",
    "Larch.Props.C121_name",
    "Larch.Props.C121_harmless",
    "Larch.Props.C121_name_or_reference",
    "Larch.Props.C121_dictionary",
    "Larch.Props.C121_list_partial",
    "Larch.Props.C121_valid",
    "Larch.Props.C121_first_model",
    "Larch.Props.C121_fails_unscanned",
    "Larch.Props.C121_fails_order",
    "Larch.Props.C121_fails_empty_function",
    "Larch.Props.C121_fails_number_in_function",
    "Larch.Props.C121_fails_list",
    "Larch.Props.C121_fails_dictionaries",
    "Larch.Props.C121_valid_unscanned"
   ],
   "note": "Proved for all expressions. Violated: on a model not yet scanned a reference raises where the name has a value, so the answer depends on what was asked before; an empty function raises AttributeError; a number as data is accepted in a component, not in a function; a list with a component raises TypeError; a second dictionary is never consulted."
  },
  {
   "property": "C122",
   "status": "partial",
   "theorems": [
    "Larch.Props.C122_evaluate",
    "Larch.Props.C122_model_values",
    "Larch.Props.C122_agrees_with_pvalue",
    "Larch.Props.C122_rename",
    "Larch.Props.C122_data_function_partial",
    "Larch.Props.C122_fails_without_namespace",
    "Larch.Props.C122_fails_two_values",
    "Larch.Props.C122_fails_placeholder",
    "Larch.Props.C122_fails_data_container",
    "Larch.Props.C122_data_parts"
   ],
   "note": "Evaluation proved for all functions and namespaces that do not contradict each other. Violated: evaluate raises without x_namespace; a name in both namespaces has two values; data without a parameter contributes 0; a container that is not bracketed changes the precedence."
  },
  {
   "property": "C123",
   "status": "partial",
   "theorems": [
    "Larch.Props.C123_accepted_says_so",
    "Larch.Props.C123_written_accepted",
    "Larch.Props.C123_other_texts_raise",
    "Larch.Props.C123_one_reading",
    "Larch.Props.C123_enforced",
    "Larch.Props.C123_ordering_text",
    "Larch.Props.C123_fails_number_like",
    "Larch.Props.C123_fails_two_numbers",
    "Larch.Props.C123_fails_forms",
    "Larch.Props.C123_fails_negative_fraction",
    "Larch.Props.C123_fails_strict",
    "Larch.Props.C123_fails_assignment"
   ],
   "note": "Proved for all texts; acceptance for names that do not have the form of a number. Violated: a parameter named e, E, e1 ... on the right raises ValueError; 1 <= 2 is accepted as a bound on parameter '1'; 3 <= a/b, 5 >= a >= 3 and -1/2 are refused; < is read as <=; text is refused in assignment."
  },
  {
   "property": "C124",
   "status": "partial",
   "theorems": [
    "Larch.Props.C124_named",
    "Larch.Props.C124_loaded_counts",
    "Larch.Props.C124_balanced",
    "Larch.Props.C124_fails_source_rescaled",
    "Larch.Props.C124_fails_second_model",
    "Larch.Props.C124_fails_named_choices"
   ],
   "note": "Proved for loads that name choices and weights, and for weights that average one. Violated: a model that does not name its weights shares the source's weight array and load_data rescales it in place without adjusting the source's normalization; a second model loaded from the same DataFrames counts differently."
  },
  {
   "property": "C125",
   "status": "partial",
   "theorems": [
    "Larch.Props.C125_nil",
    "Larch.Props.C125_nil_nonpos",
    "Larch.Props.C125_constants_above_nil",
    "Larch.Props.C125_constants_below_shares",
    "Larch.Props.C125_shares_attained",
    "Larch.Props.C125_nil_leaves_alone",
    "Larch.Props.C125_rho",
    "Larch.Props.C125_fails_no_idco",
    "Larch.Props.C125_fails_rescales",
    "Larch.Props.C125_fails_rho_twice"
   ],
   "note": "Values proved. Violated: with weights that do not average one loglike_nil divides the model's own log likelihood by the average weight, so rho_sq_nil differs the second time; loglike_constants_only raises AttributeError for a model without idco data."
  },
  {
   "property": "C126",
   "status": "partial",
   "theorems": [
    "Larch.Props.C126_rows",
    "Larch.Props.C126_shown",
    "Larch.Props.C126_fails_other_data",
    "Larch.Props.C126_fails_mixed_rho",
    "Larch.Props.C126_fails_zero"
   ],
   "note": "Proved for histories in which data and specification do not change. Violated: caches are never reset, so after other data the table shows old values divided by the new number of cases and rho squared of two data sets; a value of exactly zero counts as unknown."
  },
  {
   "property": "C127",
   "status": "partial",
   "theorems": [
    "Larch.Props.C127_variables",
    "Larch.Props.C127_choice_partial",
    "Larch.Props.C127_avail_partial",
    "Larch.Props.C127_weight",
    "Larch.Props.C127_loaded",
    "Larch.Props.C127_loaded_code",
    "Larch.Props.C127_loglike_unscaled",
    "Larch.Props.C127_keys",
    "Larch.Props.C127_fails_choice_co",
    "Larch.Props.C127_fails_any",
    "Larch.Props.C127_fails_mixed",
    "Larch.Props.C127_fails_weights",
    "Larch.Props.C127_fails_keys"
   ],
   "note": "Variables, weights, choices by column or code and availability by column or expressions are proved. Violated: choices by expressions are never requested (a misnamed key), choice_any and availability_any are dropped, classes giving choices in different ways are not refused, the log likelihood of weighted data is divided by the average weight after load_data, keys other than 1..n raise KeyError."
  },
  {
   "property": "C128",
   "status": "partial",
   "theorems": [
    "Larch.Props.C128_rows",
    "Larch.Props.C128_values",
    "Larch.Props.C128_loglikes",
    "Larch.Props.C128_rho",
    "Larch.Props.C128_fails_titles",
    "Larch.Props.C128_fails_rho_base",
    "Larch.Props.C128_fails_rho_null"
   ],
   "note": "Proved for models with different titles. Violated: models with the same title (all untitled models) show each other's values; with loglike=False rho squared with respect to a base is missing; rho squared with respect to the null model is that of the present values, not of the estimation shown."
  },
  {
   "property": "C129",
   "status": "partial",
   "theorems": [
    "Larch.Props.C129_round_trip",
    "Larch.Props.C129_inject_partial",
    "Larch.Props.C129_fails_normalized",
    "Larch.Props.C129_fails_unused_alternative",
    "Larch.Props.C129_fails_wide_choices",
    "Larch.Props.C129_fails_no_columns",
    "Larch.Props.C129_fails_stale",
    "Larch.Props.C129_fails_inject_weights",
    "Larch.Props.C129_fails_inject_partly"
   ],
   "note": "The round trip is proved for un-normalized data with columns and, when sparse, with rows for every alternative. Violated: normalized weights cannot be loaded (float.fromhex of bytes), sparse data with an alternative without rows, wide choices, frames without columns, stale files of an earlier save are loaded, injected weights raise, a failed injection has changed part of the data."
  },
  {
   "property": "C13",
   "status": "partial",
   "theorems": [
    "Larch.Props.C13_standard_order",
    "Larch.Props.C13_alternatives_order",
    "Larch.Props.C13_fails_duplicate_suggestion",
    "Larch.Props.C13_fails_stale_suggestion"
   ],
   "note": "Proved for every acyclic graph with a duplicate-free suggested order of existing codes (in particular with none). The code violates it for repeated or removed suggested codes."
  },
  {
   "property": "C130",
   "status": "partial",
   "theorems": [
    "Larch.Props.C130_columns",
    "Larch.Props.C130_rows",
    "Larch.Props.C130_lossless_partial",
    "Larch.Props.C130_weights",
    "Larch.Props.C130_fails_missing",
    "Larch.Props.C130_fails_varying_weights",
    "Larch.Props.C130_fails_named_weights"
   ],
   "note": "Proved when no value is missing. Violated: a missing value in a moved column is filled in with the case's first value, weights varying within a case are accepted, weights named by a column of the alternatives' data always raise."
  },
  {
   "property": "C131",
   "status": "partial",
   "theorems": [
    "Larch.Props.C131_trees",
    "Larch.Props.C131_fails_alternatives",
    "Larch.Props.C131_fails_same_tree",
    "Larch.Props.C131_fails_dataset",
    "Larch.Props.C131_fails_frames",
    "Larch.Props.C131_fails_old_frames"
   ],
   "note": "Proved for all histories with data trees of the same alternatives. Violated: the nesting graph of the first data is kept when a tree with other alternatives is assigned; a tree edited in place is not reloaded when assigned again; a prepared data set assigned by the user makes every evaluation raise; DataFrames assigned after a tree are ignored or make evaluations raise; a tree assigned after DataFrames is used only if the old DataFrames are complete."
  },
  {
   "property": "C132",
   "status": "partial",
   "theorems": [
    "Larch.Props.C132_ranks",
    "Larch.Props.C132_accuracy",
    "Larch.Props.C132_range",
    "Larch.Props.C132_fails_ties"
   ],
   "note": "Proved without ties (range and monotonicity also with ties). Violated: of alternatives with equal probability the one the sort puts last gets the best rank."
  },
  {
   "property": "C133",
   "status": "partial",
   "theorems": [
    "Larch.Props.C133_step",
    "Larch.Props.C133_uphill",
    "Larch.Props.C133_numba",
    "Larch.Props.C133_numba_held",
    "Larch.Props.C133_compiled_groups",
    "Larch.Props.C133_compiled_held",
    "Larch.Props.C133_compiled_raises",
    "Larch.Props.C133_compiled_partial",
    "Larch.Props.C133_compiled_last",
    "Larch.Props.C133_fails_compiled",
    "Larch.Props.C133_fails_leave_out"
   ],
   "note": "Proved in full for the numba engine without cross validation. Violated: the compiled engine restarts every group from the values at the beginning of the round, so only the step of the last group survives; both engines use the left-out cases in the jump start of an estimation with leave_out."
  },
  {
   "property": "C134",
   "status": "partial",
   "theorems": [
    "Larch.Props.C134_mapping",
    "Larch.Props.C134_array",
    "Larch.Props.C134_set_altids",
    "Larch.Props.C134_caseid",
    "Larch.Props.C134_merge_partial",
    "Larch.Props.C134_fails_relabel",
    "Larch.Props.C134_fails_unknown_dim",
    "Larch.Props.C134_fails_index",
    "Larch.Props.C134_fails_set_caseid",
    "Larch.Props.C134_fails_merge_join"
   ],
   "note": "Proved for data without alternatives of their own. Violated: for data that already have alternatives, codes given in another order relabel the data by position; the name of a dimension that does not exist is accepted; an index without a name raises; dc.CASEID checks the dimension exactly when there is a group dimension; larch.merge ignores compat, join, fill_value and combine_attrs."
  },
  {
   "property": "C135",
   "status": "partial",
   "theorems": [
    "Larch.Props.C135_code_column",
    "Larch.Props.C135_code_series",
    "Larch.Props.C135_alternatives_column",
    "Larch.Props.C135_tall",
    "Larch.Props.C135_wide",
    "Larch.Props.C135_rows_partial",
    "Larch.Props.C135_observed",
    "Larch.Props.C135_fails_unknown_code",
    "Larch.Props.C135_fails_array",
    "Larch.Props.C135_fails_one_row_per_case",
    "Larch.Props.C135_fails_rows_complete",
    "Larch.Props.C135_fails_codes_idce",
    "Larch.Props.C135_fails_code_order"
   ],
   "note": "Proved for all forms with regular frames. Violated: codes outside the alternatives are dropped silently; a plain array is not sorted with the idco frame; a two-level Series with one row per case has its values read as codes; ch_as_ce is ignored for complete data; a Series of codes is refused with idce data; whether alternatives out of order are accepted depends on the choices."
  },
  {
   "property": "C136",
   "status": "partial",
   "theorems": [
    "Larch.Props.C136_all",
    "Larch.Props.C136_by_name",
    "Larch.Props.C136_named",
    "Larch.Props.C136_tall",
    "Larch.Props.C136_wide",
    "Larch.Props.C136_weights_partial",
    "Larch.Props.C136_weights_tall",
    "Larch.Props.C136_fails_weights_column",
    "Larch.Props.C136_fails_weights_alternatives",
    "Larch.Props.C136_fails_weights_missing",
    "Larch.Props.C136_fails_columns",
    "Larch.Props.C136_fails_named_idce"
   ],
   "note": "Weights proved for sorted index. Violated: a column of weights of an unsorted idco frame is not sorted with it; a column of the alternatives raises although documented; an unknown name is accepted silently; the columns of availability are not compared with the alternatives."
  },
  {
   "property": "C137",
   "status": "partial",
   "theorems": [
    "Larch.Props.C137_round_trip_partial",
    "Larch.Props.C137_fails_names",
    "Larch.Props.C137_fails_total_weight",
    "Larch.Props.C137_fails_index_name",
    "Larch.Props.C137_fails_codes",
    "Larch.Props.C137_fails_format"
   ],
   "note": "All frames and codes come back (for every container made by the constructor from complete ordered or incomplete rows). Lost: names of alternatives, weight normalization (so that total_weight changes), name of the index; a container with availability whose codes come from alt_codes only cannot be loaded; complete data given out of order change format."
  },
  {
   "property": "C138",
   "status": "partial",
   "theorems": [
    "Larch.Props.C138_rows",
    "Larch.Props.C138_fails_idca",
    "Larch.Props.C138_fails_complete"
   ],
   "note": "Proved when the recoded rows are not a complete set. If every case has a row for every new code the frame is taken as idca and choices and availability are dropped; containers of idca data raise."
  },
  {
   "property": "C139",
   "status": "partial",
   "theorems": [
    "Larch.Props.C139_condense",
    "Larch.Props.C139_condense_other",
    "Larch.Props.C139_condense_refused",
    "Larch.Props.C139_expand",
    "Larch.Props.C139_round_trip",
    "Larch.Props.C139_wide",
    "Larch.Props.C139_rows",
    "Larch.Props.C139_fails_columns",
    "Larch.Props.C139_fails_missing",
    "Larch.Props.C139_fails_unused",
    "Larch.Props.C139_fails_dropped",
    "Larch.Props.C139_fails_shared"
   ],
   "note": "Fails: availability columns in another order select the wrong rows; missing values become zeros; alternatives without rows are not added; cases without rows are dropped from the combined frame; shared column names are renamed."
  },
  {
   "property": "C14",
   "status": "partial",
   "theorems": [
    "Larch.Props.C14_never_raises",
    "Larch.Props.C14_fails_cycles_dropped_silently",
    "Larch.Props.C14_fails_example"
   ],
   "note": "Refuted for every cyclic graph: the order is returned without the nodes that reach a cycle."
  },
  {
   "property": "C140",
   "status": "partial",
   "theorems": [
    "Larch.Props.C140_size",
    "Larch.Props.C140_held",
    "Larch.Props.C140_choosers",
    "Larch.Props.C140_fails_bounds",
    "Larch.Props.C140_fails_zone",
    "Larch.Props.C140_fails_names"
   ],
   "note": "Proved over the reals for specifications without negative values whose coefficient names are different. Fails: values below exp(-6) start outside the bounds set for them; a chooser whose observed zone is not in the land use table makes the construction raise instead of being removed; names of segment and field that run together share a parameter."
  },
  {
   "property": "C141",
   "status": "partial",
   "theorems": [
    "Larch.Props.C141_utility",
    "Larch.Props.C141_available",
    "Larch.Props.C141_all_purposes_partial",
    "Larch.Props.C141_fails_purpose",
    "Larch.Props.C141_fails_number",
    "Larch.Props.C141_fails_empty"
   ],
   "note": "Utilities proved for every purpose; availability proved with respect to the first purpose, and for all purposes when the templates leave -999 alone. Fails: a template that fixes a coefficient at -999 for a later purpose only, an exclusion read as the number -999.0, and an alternative without coefficients (the builder raises)."
  },
  {
   "property": "C142",
   "status": "partial",
   "theorems": [
    "Larch.Props.C142_linked",
    "Larch.Props.C142_utility",
    "Larch.Props.C142_available",
    "Larch.Props.C142_fails_number",
    "Larch.Props.C142_fails_hold",
    "Larch.Props.C142_fails_none"
   ],
   "note": "Linking proved for tables with different names, the utility for specs whose entries are all in the table. Fails: entries that are not in the table, such as numbers, lose their term; a free coefficient is replaced by a fixed one of the same value; without a coefficient held below -900 the availability raises."
  },
  {
   "property": "C143",
   "status": "partial",
   "theorems": [
    "Larch.Props.C143_frame",
    "Larch.Props.C143_works",
    "Larch.Props.C143_fails_pair"
   ],
   "note": "The values, order and labels are proved for every table that is converted, and conversion for tables without repetitions. Fails: the documented row per chooser and alternative is missing where all values of the pair are missing."
  },
  {
   "property": "C144",
   "status": "partial",
   "theorems": [
    "Larch.Props.C144_kept",
    "Larch.Props.C144_codes",
    "Larch.Props.C144_auto",
    "Larch.Props.C144_fails_quote",
    "Larch.Props.C144_fails_missing",
    "Larch.Props.C144_fails_large"
   ],
   "note": "clean_values proved for column names without apostrophes. Fails: apostrophes are removed from names of alternatives but not from observed choices, so these choosers are dropped; auto_ownership_model fills missing observed choices with 0 before it looks for invalid ones, so these choosers count as choosing alternative 0; it keeps choices beyond the last alternative."
  },
  {
   "property": "C145",
   "status": "partial",
   "theorems": [
    "Larch.Props.C145_separate_partial",
    "Larch.Props.C145_fails_overlap"
   ],
   "note": "Proved when no column already bears a shared name with the ending _ca; otherwise it fails."
  },
  {
   "property": "C146",
   "status": "partial",
   "theorems": [
    "Larch.Props.C146_array",
    "Larch.Props.C146_available",
    "Larch.Props.C146_fails_ints"
   ],
   "note": "Proved over the reals for arrays with one dimension, and for availability given as truth values with finite data. Fails: availability given as 0 and 1 (as data frames of a model hold it) masks every value, because ~ inverts bits."
  },
  {
   "property": "C147",
   "status": "proved",
   "theorems": [
    "Larch.Props.C147_counts",
    "Larch.Props.C147_invmap"
   ],
   "note": "Without a dictionary of labels."
  },
  {
   "property": "C148",
   "status": "partial",
   "theorems": [
    "Larch.Props.C148_labels",
    "Larch.Props.C148_array",
    "Larch.Props.C148_fails_repeat"
   ],
   "note": "Proved when no case has an alternative twice; otherwise the earlier row is silently lost."
  },
  {
   "property": "C149",
   "status": "partial",
   "theorems": [
    "Larch.Props.C149_accepts_iff_digest",
    "Larch.Props.C149_made_then_verified",
    "Larch.Props.C149_compressed_copy_same_digest",
    "Larch.Props.C149_fails_read_interrupted",
    "Larch.Props.C149_fails_never_readable",
    "Larch.Props.C149_fails_gz_not_found"
   ],
   "note": "Proved for refusals at opening, fewer than max_retries, names not in .gz. The hash object is not renewed on a retry, so an interrupted read counts twice; when all attempts are refused the digest of nothing is compared; the hash of a .gz file is written and looked for under different names."
  },
  {
   "property": "C15",
   "status": "proved",
   "theorems": [
    "Larch.Props.C15_arrays",
    "Larch.Props.C15_kernel_tree"
   ],
   "note": "For every valid acyclic graph; C15_kernel_tree derives the kernel model's well-formedness predicate from the graph."
  },
  {
   "property": "C150",
   "status": "partial",
   "theorems": [
    "Larch.Props.C150_takes",
    "Larch.Props.C150_keeps_every_file",
    "Larch.Props.C150_archiver_copies",
    "Larch.Props.C150_fails_gz_not_archived",
    "Larch.Props.C150_fails_order_of_targets"
   ],
   "note": "Full for files not yet compressed; with hash files and another destination, a file and its compressed copy must not both be taken (else the hash file depends on set order). Files in .gz are never copied to the destination."
  },
  {
   "property": "C151",
   "status": "partial",
   "theorems": [
    "Larch.Props.C151_everything_when_not_skipping",
    "Larch.Props.C151_open_files_archived",
    "Larch.Props.C151_exactly_the_open_files_partial",
    "Larch.Props.C151_members_distinct",
    "Larch.Props.C151_every_archive_alike",
    "Larch.Props.C151_fails_silent_archiver",
    "Larch.Props.C151_fails_below_hidden_folder",
    "Larch.Props.C151_fails_current_directory"
   ],
   "note": "With skip_dots, exact when no file lies in a subfolder of a dot folder and the source is not named with a dot; the fails theorems show both conditions are needed, and that Archiver(log=False) cannot zip."
  },
  {
   "property": "C152",
   "status": "partial",
   "theorems": [
    "Larch.Props.C152_blocking_rate",
    "Larch.Props.C152_blocking_grants_spaced",
    "Larch.Props.C152_blocking_never_stuck",
    "Larch.Props.C152_non_blocking_one_thread_partial",
    "Larch.Props.C152_non_blocking_refusals",
    "Larch.Props.C152_fails_two_threads",
    "Larch.Props.C152_fails_call_within",
    "Larch.Props.C152_fails_global"
   ],
   "note": "Full for the blocking limiter; the non-blocking one only within one thread: it tests the time before taking the lock, so two threads may run at the same instant, and a call from within the function deadlocks. GlobalRateLimiter names a class which does not exist."
  },
  {
   "property": "C153",
   "status": "partial",
   "theorems": [
    "Larch.Props.C153_polynomial_value",
    "Larch.Props.C153_polynomial_default",
    "Larch.Props.C153_fourier_value_partial",
    "Larch.Props.C153_fourier_period",
    "Larch.Props.C153_fourier_names_distinct",
    "Larch.Props.C153_fails_sum"
   ],
   "note": "Full for polynomial. fourier_series puts the text of x unparenthesised into a product: proved when x is a product of factors, and it is wrong for a sum (fails theorem)."
  },
  {
   "property": "C154",
   "status": "partial",
   "theorems": [
    "Larch.Props.C154_names_agree",
    "Larch.Props.C154_columns_mean_their_names",
    "Larch.Props.C154_normalize",
    "Larch.Props.C154_fails_constant"
   ],
   "note": "normalize on constant data divides by zero; real arithmetic instead of floating point."
  },
  {
   "property": "C155",
   "status": "partial",
   "theorems": [
    "Larch.Props.C155_validation_share",
    "Larch.Props.C155_validation_given",
    "Larch.Props.C155_cache_kept",
    "Larch.Props.C155_joined_rows",
    "Larch.Props.C155_fails_no_fit",
    "Larch.Props.C155_fails_labels_from_cache",
    "Larch.Props.C155_fails_dict_used_again",
    "Larch.Props.C155_fails_own_sets",
    "Larch.Props.C155_fails_share_and_data",
    "Larch.Props.C155_fails_repeated_case",
    "Larch.Props.C155_fails_missing_values"
   ],
   "note": "Learning itself is not modelled. Violations: fit=False raises; labels are wrong after reading the cache; the caller's dictionary is changed; a share with validation data is passed on; repeated cases multiply rows; missing values are filled only with case columns."
  },
  {
   "property": "C156",
   "status": "partial",
   "theorems": [
    "Larch.Props.C156_same_look",
    "Larch.Props.C156_index",
    "Larch.Props.C156_replaced",
    "Larch.Props.C156_refused",
    "Larch.Props.C156_fails_missing"
   ],
   "note": "replace_levels raises for an index with a missing label."
  },
  {
   "property": "C157",
   "status": "partial",
   "theorems": [
    "Larch.Props.C157_tally",
    "Larch.Props.C157_weighted",
    "Larch.Props.C157_fails_weighted_missing",
    "Larch.Props.C157_fails_shared_name"
   ],
   "note": "tally_weighted raises as soon as a value is missing; codes sharing a name in the dictionary make several rows of that name."
  },
  {
   "property": "C158",
   "status": "partial",
   "theorems": [
    "Larch.Props.C158_series",
    "Larch.Props.C158_array",
    "Larch.Props.C158_last",
    "Larch.Props.C158_fails_fraction"
   ],
   "note": "Targets are converted to the type of the labels first, so that fractions are cut down."
  },
  {
   "property": "C159",
   "status": "partial",
   "theorems": [
    "Larch.Props.C159_subgraph",
    "Larch.Props.C159_root_zero",
    "Larch.Props.C159_fails_root",
    "Larch.Props.C159_elemental_descendants",
    "Larch.Props.C159_competitive",
    "Larch.Props.C159_intermediate",
    "Larch.Props.C159_fails_intermediate"
   ],
   "note": "networkx makes the view with the class's constructor, so that the part has root code 0 whatever the node, and an edge from a node 0 is added; n_intermediate_nests of a bare root is -1."
  },
  {
   "property": "C16",
   "status": "proved",
   "theorems": [
    "Larch.Props.C16_cascade_availability",
    "Larch.Props.C16_cascade_choice"
   ],
   "note": ""
  },
  {
   "property": "C160",
   "status": "partial",
   "theorems": [
    "Larch.Props.C160_functions",
    "Larch.Props.C160_components",
    "Larch.Props.C160_references",
    "Larch.Props.C160_contains",
    "Larch.Props.C160_index",
    "Larch.Props.C160_fails_symmetric",
    "Larch.Props.C160_fails_transitive"
   ],
   "note": "A component equals the function holding only it but not conversely; a text equals both the parameter and the data reference of that name, which are not equal."
  },
  {
   "property": "C161",
   "status": "partial",
   "theorems": [
    "Larch.Props.C161_statement",
    "Larch.Props.C161_history",
    "Larch.Props.C161_atomic",
    "Larch.Props.C161_fails_parameter",
    "Larch.Props.C161_fails_list",
    "Larch.Props.C161_fails_mapping",
    "Larch.Props.C161_fails_self",
    "Larch.Props.C161_fails_with_error",
    "Larch.Props.C161_fails_read",
    "Larch.Props.C161_fails_self_add"
   ],
   "note": "Failing assignments of whole functions and mappings leave them emptied or in part; m.utility_co = m.utility_co drops everything; reading utility_co of a code that is no alternative makes the model unusable; f += f never ends."
  },
  {
   "property": "C162",
   "status": "partial",
   "theorems": [
    "Larch.Props.C162_merged",
    "Larch.Props.C162_column",
    "Larch.Props.C162_several",
    "Larch.Props.C162_fails_overwrite",
    "Larch.Props.C162_fails_suffix",
    "Larch.Props.C162_fails_dedupe_index",
    "Larch.Props.C162_fails_dedupe_in_place"
   ],
   "note": "overwrite=True raises NodeError; columns whose names are taken are dropped silently instead of getting the suffix; with keys in the index other_dedupe compares cells, not keys, and it changes the caller's table."
  },
  {
   "property": "C163",
   "status": "partial",
   "theorems": [
    "Larch.Props.C163_row_and_column",
    "Larch.Props.C163_constant",
    "Larch.Props.C163_beyond",
    "Larch.Props.C163_as_idca",
    "Larch.Props.C163_rows",
    "Larch.Props.C163_shared",
    "Larch.Props.C163_stack",
    "Larch.Props.C163_stack_unknown",
    "Larch.Props.C163_fails_negative",
    "Larch.Props.C163_fails_single_row",
    "Larch.Props.C163_fails_shared_single"
   ],
   "note": "Negative numbers take rows from the end; an idga pod of one case given as an array and an id0a pod of one alternative cannot be read."
  },
  {
   "property": "C164",
   "status": "partial",
   "theorems": [
    "Larch.Props.C164_header",
    "Larch.Props.C164_fails_long_field",
    "Larch.Props.C164_fails_long_name",
    "Larch.Props.C164_fails_backlink"
   ],
   "note": "Proved for fields of at most 127 bytes, names of at most 10 ASCII characters and 256 fields. Longer text fields raise OverflowError, 11-byte names run into the next, FoxPro headers give fields that do not exist."
  },
  {
   "property": "C165",
   "status": "partial",
   "theorems": [
    "Larch.Props.C165_load",
    "Larch.Props.C165_start",
    "Larch.Props.C165_grouped",
    "Larch.Props.C165_chunks",
    "Larch.Props.C165_fails_chunk_zero",
    "Larch.Props.C165_fails_deleted",
    "Larch.Props.C165_fails_blank",
    "Larch.Props.C165_fails_dates",
    "Larch.Props.C165_fails_2GB"
   ],
   "note": "Proved for files below 2 GB. Deleted records are loaded, empty numbers read as 0, dates and truth values are dropped without notice, beyond 2 GB other records are read, and chunksize=0 never ends."
  },
  {
   "property": "C166",
   "status": "partial",
   "theorems": [
    "Larch.Props.C166_covariance",
    "Larch.Props.C166_hessian",
    "Larch.Props.C166_at_once",
    "Larch.Props.C166_nothing",
    "Larch.Props.C166_fails_constrained",
    "Larch.Props.C166_fails_removed",
    "Larch.Props.C166_fails_hessian"
   ],
   "note": "Proved for histories without remove_unused_parameters. After removing and adding parameters old numbers appear under other names, hessian_matrix can be that of an earlier calculation, and constrained_covariance_matrix is always None."
  },
  {
   "property": "C167",
   "status": "partial",
   "theorems": [
    "Larch.Props.C167_lock_values",
    "Larch.Props.C167_unknown",
    "Larch.Props.C167_fails_unscanned",
    "Larch.Props.C167_fails_half_done"
   ],
   "note": "Proved on a scanned frame. Before scanning, parameters of the utility raise KeyError; an unknown name leaves the earlier ones locked."
  },
  {
   "property": "C168",
   "status": "partial",
   "theorems": [
    "Larch.Props.C168_history",
    "Larch.Props.C168_set_get",
    "Larch.Props.C168_set_other",
    "Larch.Props.C168_del",
    "Larch.Props.C168_keys",
    "Larch.Props.C168_clear",
    "Larch.Props.C168_fails_dots",
    "Larch.Props.C168_fails_names",
    "Larch.Props.C168_fails_delete",
    "Larch.Props.C168_fails_missing",
    "Larch.Props.C168_fails_pop"
   ],
   "note": "Proved for keys of which none is found in another. Deleting a key deletes every key that contains it, also when the key itself is missing; keys that differ in dots and underscores are one; iteration gives changed keys."
  },
  {
   "property": "C169",
   "status": "partial",
   "theorems": [
    "Larch.Props.C169_rewrite",
    "Larch.Props.C169_meaning",
    "Larch.Props.C169_natural",
    "Larch.Props.C169_unknown",
    "Larch.Props.C169_backing",
    "Larch.Props.C169_fails_internal",
    "Larch.Props.C169_fails_attribute",
    "Larch.Props.C169_fails_level"
   ],
   "note": "Names that are variables of the function or builtins (name, debug, id, type, sum) are evaluated to those, without NameError and without looking into the second frame; attributes named like columns are replaced; a name of both an index level and a column of the second frame changes its meaning with the other names. Python's operations on values are a parameter."
  },
  {
   "property": "C17",
   "status": "proved",
   "theorems": [
    "Larch.Props.C17_search_ends",
    "Larch.Props.C17_new_code_is_new",
    "Larch.Props.C17_used_code_raises",
    "Larch.Props.C17_code_found"
   ],
   "note": ""
  },
  {
   "property": "C170",
   "status": "partial",
   "theorems": [
    "Larch.Props.C170_cases",
    "Larch.Props.C170_values",
    "Larch.Props.C170_ce_first_partial",
    "Larch.Props.C170_fails_idce",
    "Larch.Props.C170_fails_example"
   ],
   "note": "Rows and pointers of idce data are not selected: unless the first cases are kept, each case is given the rows of the case formerly at its place (models whose choices or availability are idce too raise on the sizes instead)."
  },
  {
   "property": "C171",
   "status": "partial",
   "theorems": [
    "Larch.Props.C171_zip",
    "Larch.Props.C171_fails_directory",
    "Larch.Props.C171_fails_unnamed",
    "Larch.Props.C171_fails_coordinate"
   ],
   "note": "Only paths ending with .zip are written; for any other path nothing is saved and nothing raised. Unnamed arrays come back with a name; a coordinate's name raises, contrary to the documentation."
  },
  {
   "property": "C172",
   "status": "partial",
   "theorems": [
    "Larch.Props.C172_histogram",
    "Larch.Props.C172_one_bin",
    "Larch.Props.C172_shares",
    "Larch.Props.C172_on_idco",
    "Larch.Props.C172_sum",
    "Larch.Props.C172_unit",
    "Larch.Props.C172_equal_mass",
    "Larch.Props.C172_labels_partial",
    "Larch.Props.C172_categories_partial",
    "Larch.Props.C172_fails_label",
    "Larch.Props.C172_fails_lowest_unlabelled",
    "Larch.Props.C172_fails_number_of_bins",
    "Larch.Props.C172_fails_exclude",
    "Larch.Props.C172_fails_count_nests",
    "Larch.Props.C172_fails_categories"
   ],
   "note": "Counts are of intervals closed on the left but rows are labelled with intervals closed on the right, so that values on edges (with the default bins, the least value always) are counted in a row whose label does not contain them. An integer for bins, as documented, raises TypeError; exclude_alts of share_figure has no effect; Count with nests counts cases several times; with discrete=True unobserved categories shift the bins."
  },
  {
   "property": "C173",
   "status": "partial",
   "theorems": [
    "Larch.Props.C173_bars",
    "Larch.Props.C173_density",
    "Larch.Props.C173_area",
    "Larch.Props.C173_coincidence",
    "Larch.Props.C173_trend_partial",
    "Larch.Props.C173_categories_partial",
    "Larch.Props.C173_fails_discrete_bins",
    "Larch.Props.C173_fails_many_categories",
    "Larch.Props.C173_fails_legend",
    "Larch.Props.C173_fails_ties",
    "Larch.Props.C173_fails_trend"
   ],
   "note": "For discrete numbers the bins are replaced by 20 equal-mass bins while the axis is labelled by value; categorical variables with six or more values raise TypeError; frequent values make bins without width and NaN; the trend sums heights, not areas, and its legend is exchanged."
  },
  {
   "property": "C174",
   "status": "partial",
   "theorems": [
    "Larch.Props.C174_one_shape",
    "Larch.Props.C174_shape_given",
    "Larch.Props.C174_added",
    "Larch.Props.C174_refused",
    "Larch.Props.C174_overwrites",
    "Larch.Props.C174_fits",
    "Larch.Props.C174_nothing_lost",
    "Larch.Props.C174_expression",
    "Larch.Props.C174_blank",
    "Larch.Props.C174_renamed",
    "Larch.Props.C174_rename_accepted",
    "Larch.Props.C174_rename_keeps",
    "Larch.Props.C174_fails_exchange",
    "Larch.Props.C174_fails_hidden",
    "Larch.Props.C174_fails_overwrite_loses",
    "Larch.Props.C174_fails_one_case",
    "Larch.Props.C174_fails_expression",
    "Larch.Props.C174_fails_flat",
    "Larch.Props.C174_fails_looking"
   ],
   "note": "One shape is proved for histories that rename nothing to a reserved name. add_expression never works in a pod with a dimension of size one (its result has one more such dimension and all are squeezed); overwrite deletes before it stores, so that a failure loses both; a variable can be renamed to a reserved name, which hides it; exchanging names is refused and a refused renaming is half done; asking for the shape changes what an emptied pod accepts."
  },
  {
   "property": "C175",
   "status": "partial",
   "theorems": [
    "Larch.Props.C175_read",
    "Larch.Props.C175_indexed",
    "Larch.Props.C175_first_rows",
    "Larch.Props.C175_pod_all",
    "Larch.Props.C175_pod_places",
    "Larch.Props.C175_pod_slice_partial",
    "Larch.Props.C175_fails_underfilled",
    "Larch.Props.C175_fails_index_missing",
    "Larch.Props.C175_fails_index_twice",
    "Larch.Props.C175_fails_out",
    "Larch.Props.C175_fails_null",
    "Larch.Props.C175_fails_pod_slice"
   ],
   "note": "NULL is read as 0; asked for more rows than there are, the query is started again after one row of zeros (SQLite resets a finished statement); an index column that is not there is ignored and one that is there twice is an error; out is never accepted; a slice of a SQLitePodCO has as many rows as the whole table."
  },
  {
   "property": "C176",
   "status": "partial",
   "theorems": [
    "Larch.Props.C176_density",
    "Larch.Props.C176_two_bounds",
    "Larch.Props.C176_area_one",
    "Larch.Props.C176_one_bound",
    "Larch.Props.C176_default",
    "Larch.Props.C176_variance",
    "Larch.Props.C176_fails_bounds",
    "Larch.Props.C176_fails_weights",
    "Larch.Props.C176_fails_area"
   ],
   "note": "With two bounds only the first reflection is added, so that the area is that between the mirror images of the bounds: one for kernels of bounded reach, less than one for the gaussian default. Values of weight zero set the default bounds, and weights that add up to one or less give no bandwidth."
  },
  {
   "property": "C177",
   "status": "partial",
   "theorems": [
    "Larch.Props.C177_frequency",
    "Larch.Props.C177_total",
    "Larch.Props.C177_plotted_partial",
    "Larch.Props.C177_scale",
    "Larch.Props.C177_fails_plotted",
    "Larch.Props.C177_fails_mean",
    "Larch.Props.C177_fails_unweighted",
    "Larch.Props.C177_range"
   ],
   "note": "For a resolution above one (the defaults are 10 and 100) every frequency but that of the first bin is drawn too far to the left, because the points are resolution*(bins+1) and the frequencies resolution*bins. Means and deviations take no account of availability or weights."
  },
  {
   "property": "C178",
   "status": "partial",
   "theorems": [
    "Larch.Props.C178_answer",
    "Larch.Props.C178_unreadable",
    "Larch.Props.C178_validate",
    "Larch.Props.C178_fails_selection_order",
    "Larch.Props.C178_fails_code_order",
    "Larch.Props.C178_fails_silent",
    "Larch.Props.C178_fails_names"
   ],
   "note": "Proved for cases selected in increasing order and codes in increasing order. With another order of selection the weights are assigned to other cases; with codes not in increasing order availability is used for other alternatives, or there is no answer; unknown choice codes are no choice; availability is stored in a byte, so that 256 is unavailable; a service without names gives a container that reports no alternatives."
  },
  {
   "property": "C179",
   "status": "partial",
   "theorems": [
    "Larch.Props.C179_bunch_in_memory",
    "Larch.Props.C179_bunch_stored",
    "Larch.Props.C179_alternatives",
    "Larch.Props.C179_refuses",
    "Larch.Props.C179_reads",
    "Larch.Props.C179_load",
    "Larch.Props.C179_zero",
    "Larch.Props.C179_shape",
    "Larch.Props.C179_fails_wrong_keys",
    "Larch.Props.C179_fails_item_named_zero",
    "Larch.Props.C179_fails_dots"
   ],
   "note": "Keys that are no alternative are dropped without a word; the zero is the expression '0', which is the data item of that name if there is one; in a file names that differ by a dot are one bunch."
  },
  {
   "property": "C18",
   "status": "partial",
   "theorems": [
    "Larch.Props.C18_holdfast",
    "Larch.Props.C18_array",
    "Larch.Props.C18_rejects",
    "Larch.Props.C18_keywords",
    "Larch.Props.C18_mapping",
    "Larch.Props.C18_scalar",
    "Larch.Props.C18_null",
    "Larch.Props.C18_best_missing",
    "Larch.Props.C18_shift",
    "Larch.Props.C18_fails_nan_scalar",
    "Larch.Props.C18_fails_flag_ignored"
   ],
   "note": "Positive parts proved for every frame and argument, including shift_values. Violations proved: a NaN scalar is stored, and respect_holdfast=False is not honoured for mappings and keywords."
  },
  {
   "property": "C180",
   "status": "partial",
   "theorems": [
    "Larch.Props.C180_identifier",
    "Larch.Props.C180_unchanged",
    "Larch.Props.C180_marks_kept",
    "Larch.Props.C180_apart",
    "Larch.Props.C180_idempotent",
    "Larch.Props.C180_no_keyword",
    "Larch.Props.C180_reference",
    "Larch.Props.C180_columns",
    "Larch.Props.C180_fails_keyword",
    "Larch.Props.C180_fails_collision",
    "Larch.Props.C180_fails_not_identifier",
    "Larch.Props.C180_fails_no_quotes",
    "Larch.Props.C180_fails_number_label",
    "Larch.Props.C180_fails_frame_changed"
   ],
   "note": "Keywords with white space around become keywords; names that differ by punctuation collide; word characters that are in no identifier are kept; texts without quotes are refused by the reference function; numbers as labels raise; the caller's frame is relabelled."
  },
  {
   "property": "C181",
   "status": "partial",
   "theorems": [
    "Larch.Props.C181_counts",
    "Larch.Props.C181_shares",
    "Larch.Props.C181_shares_sum",
    "Larch.Props.C181_without_row_totals",
    "Larch.Props.C181_table",
    "Larch.Props.C181_fails_column_named_total",
    "Larch.Props.C181_fails_not_stacked"
   ],
   "note": "Proved for tables without a column category named TOTAL, shown stacked. With such a category its counts are overwritten and the parts of all are wrong; not stacked, the row '% of TOT' shows negative numbers."
  },
  {
   "property": "C182",
   "status": "partial",
   "theorems": [
    "Larch.Props.C182_rows",
    "Larch.Props.C182_crack",
    "Larch.Props.C182_no_choice",
    "Larch.Props.C182_missing",
    "Larch.Props.C182_fails_choice_moved",
    "Larch.Props.C182_fails_columns"
   ],
   "note": "With crack the choice column may be moved to the cases and is then not found; columns asked for that are moved raise, and moved columns that are not asked for are imported."
  },
  {
   "property": "C183",
   "status": "partial",
   "theorems": [
    "Larch.Props.C183_never_overwrites",
    "Larch.Props.C183_fatten",
    "Larch.Props.C183_flatten",
    "Larch.Props.C183_reshape",
    "Larch.Props.C183_reshape_flatten",
    "Larch.Props.C183_refused",
    "Larch.Props.C183_copy",
    "Larch.Props.C183_copy_other_size",
    "Larch.Props.C183_pluck",
    "Larch.Props.C183_pluck_taken",
    "Larch.Props.C183_fails_row_number",
    "Larch.Props.C183_fails_same_name",
    "Larch.Props.C183_fails_no_such_column",
    "Larch.Props.C183_shape",
    "Larch.Props.C183_pluck_from_end",
    "Larch.Props.C183_pluck_no_page"
   ],
   "note": "Proved for pods with distinct names and arrays of one shape. A single number is taken for columns and not for rows; columns missing in the other pod, and the second of two to be copied under one name, are left out silently."
  },
  {
   "property": "C184",
   "status": "partial",
   "theorems": [
    "Larch.Props.C184_bars",
    "Larch.Props.C184_all_shown",
    "Larch.Props.C184_fixed_bars",
    "Larch.Props.C184_fixed_parts",
    "Larch.Props.C184_density",
    "Larch.Props.C184_discrete",
    "Larch.Props.C184_seems_discrete",
    "Larch.Props.C184_fails_number_of_bars",
    "Larch.Props.C184_fails_threshold",
    "Larch.Props.C184_fails_density",
    "Larch.Props.C184_fails_zeros_under",
    "Larch.Props.C184_fails_no_data",
    "Larch.Props.C184_limits",
    "Larch.Props.C184_methods",
    "Larch.Props.C184_open",
    "Larch.Props.C184_piece",
    "Larch.Props.C184_discrete_choices"
   ],
   "note": "One bar less than asked for; the threshold is not used without a fixed range; density without choice weights raises; zeros left out are not counted as under a limit; without data the range is marked as truncated."
  },
  {
   "property": "C185",
   "status": "partial",
   "theorems": [
    "Larch.Props.C185_array_to_ce",
    "Larch.Props.C185_names",
    "Larch.Props.C185_make_mnl",
    "Larch.Props.C185_fails_unused_alternative",
    "Larch.Props.C185_fails_more_cases",
    "Larch.Props.C185_fails_repeated",
    "Larch.Props.C185_fails_length",
    "Larch.Props.C185_fails_same_utility",
    "Larch.Props.C185_fails_shared"
   ],
   "note": "array_to_ce raises IndexError if the last alternative or a case has no rows; the number of names is not checked; with idco data alone all alternatives of make_mnl but the first have the same utility."
  },
  {
   "property": "C186",
   "status": "partial",
   "theorems": [
    "Larch.Props.C186_header",
    "Larch.Props.C186_prefix",
    "Larch.Props.C186_keyword",
    "Larch.Props.C186_kept",
    "Larch.Props.C186_bytes",
    "Larch.Props.C186_progress",
    "Larch.Props.C186_progress_ends",
    "Larch.Props.C186_fails_dots",
    "Larch.Props.C186_fails_prefixed",
    "Larch.Props.C186_fails_any_prefix",
    "Larch.Props.C186_fails_same",
    "Larch.Props.C186_fails_empty",
    "Larch.Props.C186_fails_large",
    "Larch.Props.C186_fails_iterating",
    "Larch.Props.C186_fails_left",
    "Larch.Props.C186_fails_empty_header"
   ],
   "note": "Keywords result from dots and behind prefixes; any first character is taken for a prefix of case and group; different headers get the same name; an empty file raises ZeroDivisionError."
  },
  {
   "property": "C187",
   "status": "partial",
   "theorems": [
    "Larch.Props.C187_expansion",
    "Larch.Props.C187_inplace",
    "Larch.Props.C187_round_trip",
    "Larch.Props.C187_fails_single",
    "Larch.Props.C187_fails_drop",
    "Larch.Props.C187_fails_empty"
   ],
   "note": "A frame with a single column raises AttributeError; drop has no effect; no data raise ValueError."
  },
  {
   "property": "C188",
   "status": "partial",
   "theorems": [
    "Larch.Props.C188_in_use",
    "Larch.Props.C188_batch",
    "Larch.Props.C188_evaluate",
    "Larch.Props.C188_fails_evaluate_in_batch",
    "Larch.Props.C188_fails_attach_in_batch",
    "Larch.Props.C188_fails_exception",
    "Larch.Props.C188_fails_holdfast",
    "Larch.Props.C188_fails_direct"
   ],
   "note": "A value used by an evaluation in a batch and then set back, the changes of a batch left by an exception, and changes of holdfast flags alone, are not noticed."
  },
  {
   "property": "C189",
   "status": "partial",
   "theorems": [
    "Larch.Props.C189_value",
    "Larch.Props.C189_unknown",
    "Larch.Props.C189_getitem",
    "Larch.Props.C189_group",
    "Larch.Props.C189_whole",
    "Larch.Props.C189_fails_nested",
    "Larch.Props.C189_fails_constant",
    "Larch.Props.C189_fails_whole",
    "Larch.Props.C189_fails_mask",
    "Larch.Props.C189_fails_group_mask",
    "Larch.Props.C189_lengths",
    "Larch.Props.C189_number",
    "Larch.Props.C189_slice_not_last"
   ],
   "note": "An `in` inside of a comparison is left to Python and raises, as does `in` after a number; functions of the whole array (`normalize`) see the selected cases or all, depending on the kind of selector; masks and lists of positions in pod[...] and in groups of pods raise."
  },
  {
   "property": "C19",
   "status": "proved",
   "theorems": [
    "Larch.Props.C19_lock",
    "Larch.Props.C19_stays_locked",
    "Larch.Props.C19_lock_null"
   ],
   "note": "Any history of set_values, set_value on other parameters, mangle/unmangle, loglike, loglike_null."
  },
  {
   "property": "C190",
   "status": "partial",
   "theorems": [
    "Larch.Props.C190_partial",
    "Larch.Props.C190_fails_dict",
    "Larch.Props.C190_fails_dict_blurb",
    "Larch.Props.C190_fails_case",
    "Larch.Props.C190_fails_case_picture"
   ],
   "note": "After a nested dict the row for the next addition is that of the dict, so the next addition is written over it, and a blurb is written over its heading; a sheet whose name differs from another in case only gets another name, under which tables cannot be written, pictures are put over each other, and the table of contents gives the wrong sheet."
  },
  {
   "property": "C191",
   "status": "partial",
   "theorems": [
    "Larch.Props.C191_partial",
    "Larch.Props.C191_last",
    "Larch.Props.C191_fails_again",
    "Larch.Props.C191_fails_long"
   ],
   "note": "An object embedded again under a key cannot be read by its key; one whose text is longer than 491 460 000 characters is cut."
  },
  {
   "property": "C192",
   "status": "partial",
   "theorems": [
    "Larch.Props.C192_partial",
    "Larch.Props.C192_fails_frame",
    "Larch.Props.C192_fails_flat"
   ],
   "note": "Of frames in a dict only the labels of the columns are written; a value and a sequence of one look the same."
  },
  {
   "property": "C193",
   "status": "partial",
   "theorems": [
    "Larch.Props.C193_change_cols",
    "Larch.Props.C193_needs_slicer",
    "Larch.Props.C193_other_matrices",
    "Larch.Props.C193_import",
    "Larch.Props.C193_import_all",
    "Larch.Props.C193_retype_matrix",
    "Larch.Props.C193_retype_lookup",
    "Larch.Props.C193_rlookup",
    "Larch.Props.C193_fails_half_done",
    "Larch.Props.C193_fails_spread",
    "Larch.Props.C193_fails_one_slicer",
    "Larch.Props.C193_fails_import_half_done",
    "Larch.Props.C193_fails_temporary",
    "Larch.Props.C193_fails_rlookup",
    "Larch.Props.C193_retype_both"
   ],
   "note": "An exception leaves what was written before; a matrix of one row, or one picked column, is spread over all; giving one slicer of import_omx raises; an array with the name of the temporary one is lost; lookups of files that are not square cannot be converted; rlookup goes from positions to labels, not back."
  },
  {
   "property": "C194",
   "status": "proved",
   "theorems": [
    "Larch.Props.C194_split",
    "Larch.Props.C194_dataframes",
    "Larch.Props.C194_models",
    "Larch.Props.C194_fails_two_cases",
    "Larch.Props.C194_fails_nobody",
    "Larch.Props.C194_fails_listed_twice",
    "Larch.Props.C194_fails_size_missing",
    "Larch.Props.C194_names"
   ],
   "note": "A household of one with two persons, or one listed twice, becomes two cases without complaint; a household without persons is lost; if one of the sizes does not occur no model is made."
  },
  {
   "property": "C195",
   "status": "partial",
   "theorems": [
    "Larch.Props.C195_name_partial",
    "Larch.Props.C195_names_identify_partial",
    "Larch.Props.C195_padding",
    "Larch.Props.C195_placeholder",
    "Larch.Props.C195_nest_name_partial",
    "Larch.Props.C195_last_copy",
    "Larch.Props.C195_next_category",
    "Larch.Props.C195_fails_misnamed",
    "Larch.Props.C195_fails_dash"
   ],
   "note": "Proved for rows whose counter is below 2^label_offset. For the others it is false: the number is printed as the placeholder and, at the last level, the name is that of the next category (C195_next_category, for every frame; when nothing repeats this is every row)."
  },
  {
   "property": "C196",
   "status": "partial",
   "theorems": [
    "Larch.Props.C196_last_position",
    "Larch.Props.C196_same_data",
    "Larch.Props.C196_others",
    "Larch.Props.C196_one_or_none",
    "Larch.Props.C196_unknown",
    "Larch.Props.C196_value_counts",
    "Larch.Props.C196_fails"
   ],
   "note": "Without the conditions it fails silently: a value that is no label becomes None if it stands first (and is an error elsewhere), a repeated label selects its last place, a name given twice is mapped twice; an empty variable is an error."
  },
  {
   "property": "C197",
   "status": "proved",
   "theorems": [
    "Larch.Props.C197_places",
    "Larch.Props.C197_texts",
    "Larch.Props.C197_fails"
   ],
   "note": "Outside these conditions it fails: a blank row makes a later row raise IndexError, a wide cell in a table without a row of single cells too, and below a cell that spans both ways a cell is put into a taken place."
  },
  {
   "property": "C198",
   "status": "partial",
   "theorems": [
    "Larch.Props.C198_stack_value",
    "Larch.Props.C198_stack_form",
    "Larch.Props.C198_stack_mono",
    "Larch.Props.C198_stack_recursion",
    "Larch.Props.C198_single",
    "Larch.Props.C198_splits",
    "Larch.Props.C198_split_each",
    "Larch.Props.C198_fails_sixty_seconds",
    "Larch.Props.C198_fails_reused",
    "Larch.Props.C198_stack_ties"
   ],
   "note": "Seconds below 60 fails: 59.996 is written as 60.00s, 3599.996 as 59m 60.00s. A TimingLog that is used again keeps the time of its last split, so its splits exceed the second block."
  },
  {
   "property": "C199",
   "status": "partial",
   "theorems": [
    "Larch.Props.C199_path_fits",
    "Larch.Props.C199_path_cut",
    "Larch.Props.C199_path_no_longer",
    "Larch.Props.C199_max_len",
    "Larch.Props.C199_grid",
    "Larch.Props.C199_fails_name_alone",
    "Larch.Props.C199_fails_longer",
    "Larch.Props.C199_fails_ragged"
   ],
   "note": "Fails for a path of one name, which is replaced by the sign alone, and for a name in the root, which is shown with one more character. Rows of different lengths raise IndexError, and without rows grid_str does not end."
  },
  {
   "property": "C20",
   "status": "proved",
   "theorems": [
    "Larch.Props.C20_keeps",
    "Larch.Props.C20_names_unique",
    "Larch.Props.C20_defaults",
    "Larch.Props.C20_idempotent"
   ],
   "note": "The best column and best log likelihood are cleared by a forced re-scan (C21); all other columns are kept."
  },
  {
   "property": "C200",
   "status": "partial",
   "theorems": [
    "Larch.Props.C200_best",
    "Larch.Props.C200_same_found",
    "Larch.Props.C200_errors",
    "Larch.Props.C200_case",
    "Larch.Props.C200_fails_copies"
   ],
   "note": "Each name once fails: copies of a possibility take the places of others. The exact name is found unless n others are just as similar."
  },
  {
   "property": "C201",
   "status": "partial",
   "theorems": [
    "Larch.Props.C201_apply",
    "Larch.Props.C201_again",
    "Larch.Props.C201_errors",
    "Larch.Props.C201_fails_missing",
    "Larch.Props.C201_fails_cases"
   ],
   "note": "Missing values are zeros only if there are columns of the cases, and are passed on as missing otherwise; a case that is not in the table of the cases is not refused, its values are zeros."
  },
  {
   "property": "C202",
   "status": "partial",
   "theorems": [
    "Larch.Props.C202_equal",
    "Larch.Props.C202_counts",
    "Larch.Props.C202_one_place",
    "Larch.Props.C202_trim",
    "Larch.Props.C202_fails_gaps",
    "Larch.Props.C202_fails_tolerance",
    "Larch.Props.C202_fails_faint"
   ],
   "note": "Places between blocks are not looked at, only sums of blocks are compared, pictures of one band never differ, the tolerance has no influence, and trimming a picture where nothing stands out gives None. Exact numbers; the marked picture is not modelled."
  },
  {
   "property": "C203",
   "status": "partial",
   "theorems": [
    "Larch.Props.C203_plain",
    "Larch.Props.C203_once",
    "Larch.Props.C203_heard",
    "Larch.Props.C203_order",
    "Larch.Props.C203_fails_unheard"
   ],
   "note": "Only calls by square brackets are told of: get, setdefault, pop and update are not, and a copy raises a TypeError. Callbacks do not touch the dictionary; popitem, clear and |=, which are inherited, are not modelled."
  },
  {
   "property": "C204",
   "status": "partial",
   "theorems": [
    "Larch.Props.C204_set",
    "Larch.Props.C204_setdefault",
    "Larch.Props.C204_texts",
    "Larch.Props.C204_copy",
    "Larch.Props.C204_fails",
    "Larch.Props.C204_plain"
   ],
   "note": "Items given at the start or by update are not made texts and are then not found by square brackets or in; get, del and pop do not make texts of keys. popitem, clear and |=, and unhashable keys, are not modelled; notifications are those of C42."
  },
  {
   "property": "C205",
   "status": "partial",
   "theorems": [
    "Larch.Props.C205_once",
    "Larch.Props.C205_console",
    "Larch.Props.C205_keeps",
    "Larch.Props.C205_fails_relative",
    "Larch.Props.C205_fails_level",
    "Larch.Props.C205_more"
   ],
   "note": "A name of a file that is not absolute is not recognised, so messages are written once for each call; asking for a file does not lower the level of the logger. Handlers are those made by the two functions; propagation to the root logger is not modelled."
  },
  {
   "property": "C206",
   "status": "partial",
   "theorems": [
    "Larch.Props.C206_free",
    "Larch.Props.C206_ending",
    "Larch.Props.C206_kept",
    "Larch.Props.C206_many",
    "Larch.Props.C206_fails_overwritten"
   ],
   "note": "With spool=False a copy of the same name is overwritten. Other processes do not write into the directory, and the source is not in it; removal at exit is not modelled."
  },
  {
   "property": "C207",
   "status": "partial",
   "theorems": [
    "Larch.Props.C207_exact",
    "Larch.Props.C207_blank",
    "Larch.Props.C207_fails_blanks"
   ],
   "note": "For code indented with tabs; with four blanks the first character of every line is lost. Running the code is not modelled."
  },
  {
   "property": "C21",
   "status": "partial",
   "theorems": [
    "Larch.Props.C21_best",
    "Larch.Props.C21_numba_full",
    "Larch.Props.C21_compiled_full",
    "Larch.Props.C21_fails_fold"
   ],
   "note": "Invariant proved for every history of reported values; the compiled models also report log likelihoods of cross validation folds (violation proved)."
  },
  {
   "property": "C22",
   "status": "partial",
   "theorems": [
    "Larch.Props.C22_restores_partial",
    "Larch.Props.C22_at_null",
    "Larch.Props.C22_fails_stale",
    "Larch.Props.C22_fails_exception",
    "Larch.Props.C22_fails_holdfast"
   ],
   "note": "Missing: the property is false of the code in three ways, each proved: cached value never invalidated, values not restored when the evaluation raises, held-fast parameters not set to null."
  },
  {
   "property": "C23",
   "status": "partial",
   "theorems": [
    "Larch.Props.C23_value_partial",
    "Larch.Props.C23_terms_never_raise",
    "Larch.Props.C23_value_unique",
    "Larch.Props.C23_data_operators",
    "Larch.Props.C23_data_power_partial",
    "Larch.Props.C23_fails_zero_minus",
    "Larch.Props.C23_fails_zero_minus_value",
    "Larch.Props.C23_fails_double_zero",
    "Larch.Props.C23_fails_negative_base",
    "Larch.Props.C23_fails_nested_product",
    "Larch.Props.C23_fails_boolean_square",
    "Larch.Props.C23_fails_boolean_exclusive",
    "Larch.Props.C23_placeholder"
   ],
   "note": "Proved for all expression trees of + - * / and unary minus in which no operator meets one of four operand combinations; for those the code is wrong (0-P, X('00')+.., P*(P*n), boolean shortcuts), each shown by a fails theorem."
  },
  {
   "property": "C24",
   "status": "partial",
   "theorems": [
    "Larch.Props.C24_printing_partial",
    "Larch.Props.C24_fails_subtract",
    "Larch.Props.C24_fails_divide",
    "Larch.Props.C24_fails_component"
   ],
   "note": "Printing is faithful when right operands of - and / are not themselves sums or quotients of the same precedence (and no raw component occurs); outside that set the real code drops needed parentheses, witnessed by the fails theorems."
  },
  {
   "property": "C25",
   "status": "proved",
   "theorems": [
    "Larch.Props.C25_remove"
   ],
   "note": "Backward index-deletion loop equals the order-preserving filter."
  },
  {
   "property": "C26",
   "status": "partial",
   "theorems": [
    "Larch.Props.C26_ordering",
    "Larch.Props.C26_fixed",
    "Larch.Props.C26_ratio_partial",
    "Larch.Props.C26_ratio_linear",
    "Larch.Props.C26_ordering_linear",
    "Larch.Props.C26_fixed_linear",
    "Larch.Props.C26_fails_negative",
    "Larch.Props.C26_fails_zero"
   ],
   "note": "Ordering and fixed bounds: full. Ratio bounds only for positive ratios: with a negative minimum ratio the function encodes the opposite inequality (C26_fails_negative), with 0 linking raises ZeroDivisionError (C26_fails_zero)."
  },
  {
   "property": "C27",
   "status": "partial",
   "theorems": [
    "Larch.Props.C27_ratio",
    "Larch.Props.C27_ordering",
    "Larch.Props.C27_fixed",
    "Larch.Props.C27_fails_same_parameter"
   ],
   "note": "Holds whenever the two parameter names differ; a constraint relating a parameter to itself has a wrong Jacobian (C27_fails_same_parameter)."
  },
  {
   "property": "C28",
   "status": "partial",
   "theorems": [
    "Larch.Props.C28_no_duplicates_partial",
    "Larch.Props.C28_fails_assignment"
   ],
   "note": "All histories of all list operations on any number of models; the constructor / whole-list assignment does not filter duplicates (C28_fails_assignment)."
  },
  {
   "property": "C29",
   "status": "partial",
   "theorems": [
    "Larch.Props.C29_step",
    "Larch.Props.C29_step_ends",
    "Larch.Props.C29_fit",
    "Larch.Props.C29_fit_ends",
    "Larch.Props.C29_numba_pvals",
    "Larch.Props.C29_numba_partial",
    "Larch.Props.C29_numba_ends",
    "Larch.Props.C29_fails_worse",
    "Larch.Props.C29_fails_reported",
    "Larch.Props.C29_fails_nan",
    "Larch.Props.C29_fails_jumpstart",
    "Larch.Props.C29_fails_selection"
   ],
   "note": "Proved for simple_step_bhhh and simple_fit_bhhh (no NaN, no jumpstart, all cases), for every objective. For the numba fit_bhhh proved where short steps improve; violated when a line search fails (C29_fails_worse, on a concave objective). NaN, jumpstart and case selection violate it too."
  },
  {
   "property": "C30",
   "status": "proved",
   "theorems": [
    "Larch.Props.C30_restored",
    "Larch.Props.C30_fails_no_attribute"
   ],
   "note": "For models that have the settings (all numba models), for every behaviour of the optimizers. A model class without the attribute is left with one after a BHHH start (C30_fails_no_attribute)."
  },
  {
   "property": "C31",
   "status": "partial",
   "theorems": [
    "Larch.Props.C31_visits",
    "Larch.Props.C31_storage",
    "Larch.Props.C31_any_schedule",
    "Larch.Props.C31_step_rejected",
    "Larch.Props.C31_numba_agrees",
    "Larch.Props.C31_numba_in_range",
    "Larch.Props.C31_fails_stop_beyond_end",
    "Larch.Props.C31_fails_negative_stop",
    "Larch.Props.C31_numba_fails_stop_minus_one"
   ],
   "note": "Slicing, storage and any thread schedule proved; the code does not check the range and treats negative stops contrary to its documentation."
  },
  {
   "property": "C32",
   "status": "partial",
   "theorems": [
    "Larch.Props.C32_partition",
    "Larch.Props.C32_folds_add_up",
    "Larch.Props.C32_cross_validate",
    "Larch.Props.C32_fails_numba"
   ],
   "note": "Proved for the compiled drivers; false for the numba model, which ignores the fold arguments."
  },
  {
   "property": "C33",
   "status": "partial",
   "theorems": [
    "Larch.Props.C33_codes_distinct",
    "Larch.Props.C33_code_identifies",
    "Larch.Props.C33_decode_partial",
    "Larch.Props.C33_decode_all_partial",
    "Larch.Props.C33_nests_partial",
    "Larch.Props.C33_counter_misread",
    "Larch.Props.C33_wrong_nest",
    "Larch.Props.C33_decode_fails"
   ],
   "note": "Distinctness proved in full; decoding is false in the code when the largest counter is an exact power of two (C33_decode_fails, C33_wrong_nest characterise the failure); otherwise proved (_partial)."
  },
  {
   "property": "C34",
   "status": "proved",
   "theorems": [
    "Larch.Props.C34_mask_bits",
    "Larch.Props.C34_masks_partition",
    "Larch.Props.C34_empty"
   ],
   "note": ""
  },
  {
   "property": "C35",
   "status": "proved",
   "theorems": [
    "Larch.Props.C35_leg_values",
    "Larch.Props.C35_pieces_sum",
    "Larch.Props.C35_equal_slopes",
    "Larch.Props.C35_legs",
    "Larch.Props.C35_no_breaks"
   ],
   "note": "exact real arithmetic"
  },
  {
   "property": "C36",
   "status": "proved",
   "theorems": [
    "Larch.Props.C36_range",
    "Larch.Props.C36_increasing",
    "Larch.Props.C36_decreasing",
    "Larch.Props.C36_equal_bounds"
   ],
   "note": "exact real arithmetic; equal bounds are a step, 0 at the bound"
  },
  {
   "property": "C37",
   "status": "proved",
   "theorems": [
    "Larch.Props.C37_last_match",
    "Larch.Props.C37_nan",
    "Larch.Props.C37_total",
    "Larch.Props.C37_fails_mutates_argument"
   ],
   "note": "also shown: a caller's list argument is extended by the keyword periods"
  },
  {
   "property": "C38",
   "status": "partial",
   "theorems": [
    "Larch.Props.C38_sorted",
    "Larch.Props.C38_unsorted_actual",
    "Larch.Props.C38_unsorted_partial",
    "Larch.Props.C38_duplicates",
    "Larch.Props.C38_fails_three_cycle"
   ],
   "note": "proved for sorted labels; for unsorted labels the code is wrong unless the sorting permutation is an involution at that value (counterexample proved)"
  },
  {
   "property": "C39",
   "status": "partial",
   "theorems": [
    "Larch.Props.C39_mixture",
    "Larch.Props.C39_distribution",
    "Larch.Props.C39_derivative",
    "Larch.Props.C39_rows",
    "Larch.Props.C39_loglike",
    "Larch.Props.C39_gradient",
    "Larch.Props.C39_fails_missing_class",
    "Larch.Props.C39_fails_count",
    "Larch.Props.C39_fails_negative_stop"
   ],
   "note": "Mixture, distribution, product rule, log likelihood and its gradient proved for any number of classes/alternatives/cases when classes = membership alternatives. The code does not check that, takes the wrong alternative count when data are not DataFrames, and rejects documented negative stop_case: violations proved."
  },
  {
   "property": "C40",
   "status": "partial",
   "theorems": [
    "Larch.Props.C40_n_cases",
    "Larch.Props.C40_total_weight",
    "Larch.Props.C40_loglike",
    "Larch.Props.C40_loglike_sum",
    "Larch.Props.C40_refuses",
    "Larch.Props.C40_set_values",
    "Larch.Props.C40_set_named",
    "Larch.Props.C40_gradient",
    "Larch.Props.C40_gradient_deriv",
    "Larch.Props.C40_fails_holdfast",
    "Larch.Props.C40_fails_unused",
    "Larch.Props.C40_fails_override",
    "Larch.Props.C40_fails_nan_gradient",
    "Larch.Props.C40_fails_orphan"
   ],
   "note": "Sum of members and sharing proved for any list of members, except parameters a member holds fast. Violations proved: held-fast members, set_values on an unused group, respect_holdfast=False, masked NaN gradient, orphan parameters."
  },
  {
   "property": "C41",
   "status": "proved",
   "theorems": [
    "Larch.Props.C41_ranks",
    "Larch.Props.C41_top_k"
   ],
   "note": "argsort is any sorted permutation"
  },
  {
   "property": "C42",
   "status": "partial",
   "theorems": [
    "Larch.Props.C42_touch_partial",
    "Larch.Props.C42_fails_assignment",
    "Larch.Props.C42_raise",
    "Larch.Props.C42_fails_history"
   ],
   "note": "All methods except item and attribute assignment notify exactly once; the two assignments call a name-mangled method that does not exist and never notify (proved)."
  },
  {
   "property": "C43",
   "status": "partial",
   "theorems": [
    "Larch.Props.C43_choice",
    "Larch.Props.C43_choice_exclusive",
    "Larch.Props.C43_avail_partial",
    "Larch.Props.C43_avail_exclusive",
    "Larch.Props.C43_fails_any_false",
    "Larch.Props.C43_fails_none"
   ],
   "note": "Proved for choices for every sequence of statements, and for availability without the two removing statements, for which the property is violated (C43_fails_*)."
  },
  {
   "property": "C44",
   "status": "partial",
   "theorems": [
    "Larch.Props.C44_nonpositive",
    "Larch.Props.C44_approximates_violation",
    "Larch.Props.C44_decreasing_partial",
    "Larch.Props.C44_decreasing_low_partial",
    "Larch.Props.C44_fails_decreasing",
    "Larch.Props.C44_derivative_partial",
    "Larch.Props.C44_derivative_error",
    "Larch.Props.C44_points_inward",
    "Larch.Props.C44_fails_derivative",
    "Larch.Props.C44_ordering_partial",
    "Larch.Props.C44_ratio_partial"
   ],
   "note": "Non-positivity and derivative exact outside the window of the two cuts; the penalty improves when the violation crosses 10/sharpness (C44_fails_decreasing) and the derivative is slightly wrong between the cuts (C44_fails_derivative, bounded by C44_derivative_error)."
  },
  {
   "property": "C45",
   "status": "proved",
   "theorems": [
    "Larch.Props.C45_one_hot",
    "Larch.Props.C45_round_trip"
   ],
   "note": "single array/Series input"
  },
  {
   "property": "C46",
   "status": "proved",
   "theorems": [
    "Larch.Props.C46_holdfast",
    "Larch.Props.C46_inverse",
    "Larch.Props.C46_covariance",
    "Larch.Props.C46_constrained",
    "Larch.Props.C46_constrained_holdfast",
    "Larch.Props.C46_fails_robust"
   ],
   "note": "For matrices of any size and any list of constraints; the information matrix is assumed symmetric and positive semidefinite in the free parameters (a maximum). The robust covariance matrix is not adjusted for constraints (C46_fails_robust)."
  },
  {
   "property": "C47",
   "status": "partial",
   "theorems": [
    "Larch.Props.C47_numba_casewise_sum",
    "Larch.Props.C47_compiled_casewise_sum_partial",
    "Larch.Props.C47_fails_compiled"
   ],
   "note": "Proved for numba; the compiled drivers omit the weight normalization."
  },
  {
   "property": "C48",
   "status": "partial",
   "theorems": [
    "Larch.Props.C48_idce_cases_partial",
    "Larch.Props.C48_fails_unsorted",
    "Larch.Props.C48_fails_unused_level"
   ],
   "note": "Proved for frames sorted by case with every level used; false otherwise."
  },
  {
   "property": "C49",
   "status": "proved",
   "theorems": [
    "Larch.Props.C49_breaks_round_trip",
    "Larch.Props.C49_inferred_legs"
   ],
   "note": "bounds as values, not text"
  },
  {
   "property": "C50",
   "status": "proved",
   "theorems": [
    "Larch.Props.C50_ratio_min"
   ],
   "note": "exact real arithmetic"
  },
  {
   "property": "C51",
   "status": "proved",
   "theorems": [
    "Larch.Props.C51_unique_ids"
   ],
   "note": ""
  },
  {
   "property": "C52",
   "status": "partial",
   "theorems": [
    "Larch.Props.C52_lossless_partial",
    "Larch.Props.C52_fails_out_of_range"
   ],
   "note": "false beyond the int32 range (proved); true within it"
  },
  {
   "property": "C53",
   "status": "partial",
   "theorems": [
    "Larch.Props.C53_others_untouched",
    "Larch.Props.C53_plain",
    "Larch.Props.C53_fails_initvalue",
    "Larch.Props.C53_fails_unknown_name"
   ],
   "note": "Other parameters are untouched for all arguments. Violations proved: the documented copy of the value to initvalue does not happen when an initvalue exists, unknown names create incomplete rows."
  },
  {
   "property": "C54",
   "status": "partial",
   "theorems": [
    "Larch.Props.C54_evaluation_current_partial",
    "Larch.Props.C54_fails_remove",
    "Larch.Props.C54_fails_shared",
    "Larch.Props.C54_fails_alias",
    "Larch.Props.C54_fails_values"
   ],
   "note": "Refinement to plain values for all histories of statements that go through model attributes and assign expressions; remove_data/remove_param, shared function objects and values() references violate it (proved)."
  },
  {
   "property": "C55",
   "status": "partial",
   "theorems": [
    "Larch.Props.C55_orders_current_partial",
    "Larch.Props.C55_model_told",
    "Larch.Props.C55_fails_suggest",
    "Larch.Props.C55_fails_after_exception",
    "Larch.Props.C55_fails_bulk"
   ],
   "note": "Holds for histories without suggest_elemental_order after a read, without add_node raising half way, without inherited bulk methods; each of the three is refuted."
  },
  {
   "property": "C56",
   "status": "partial",
   "theorems": [
    "Larch.Props.C56_slots_agree_iff",
    "Larch.Props.C56_increasing_codes_partial",
    "Larch.Props.C56_fails_other_orders",
    "Larch.Props.C56_fails_nest"
   ],
   "note": "Exactly characterised: holds iff the data list the alternatives in the graph's order (increasing codes by default); refuted for every other order."
  },
  {
   "property": "C57",
   "status": "partial",
   "theorems": [
    "Larch.Props.C57_assign_partial",
    "Larch.Props.C57_fails_root_lost",
    "Larch.Props.C57_fails_new_alternative",
    "Larch.Props.C57_fails_keyerror"
   ],
   "note": "Holds for root 0; refuted for every other root and for any suggested order."
  },
  {
   "property": "C58",
   "status": "partial",
   "theorems": [
    "Larch.Props.C58_new_root_partial",
    "Larch.Props.C58_fails_child_as_root"
   ],
   "note": "Proved for every tree and every new code not in it; refuted when the new root is an existing child of the old one."
  },
  {
   "property": "C59",
   "status": "partial",
   "theorems": [
    "Larch.Props.C59_ordering",
    "Larch.Props.C59_fixed",
    "Larch.Props.C59_ratio_two_sided_partial",
    "Larch.Props.C59_fails_one_sided"
   ],
   "note": "A one-sided ratio bound is reported as binding whenever it is satisfied (C59_fails_one_sided)."
  },
  {
   "property": "C60",
   "status": "proved",
   "theorems": [
    "Larch.Props.C60_violation_iff",
    "Larch.Props.C60_bounds"
   ],
   "note": "NaN entries count as no violation, as stated in the theorem."
  },
  {
   "property": "C61",
   "status": "partial",
   "theorems": [
    "Larch.Props.C61_constraints_linked_partial",
    "Larch.Props.C61_fails_new_parameter",
    "Larch.Props.C61_fails_effect",
    "Larch.Props.C61_fails_insert_negative",
    "Larch.Props.C61_fails_early_constraint",
    "Larch.Props.C61_fails_shared"
   ],
   "note": "Holds for all polite histories; constraints are never re-linked when the parameter frame changes, insert(-1) links the wrong one, KeyError leaves the constraint in the list unlinked, and constraints shared by two models are linked to the last one."
  },
  {
   "property": "C62",
   "status": "partial",
   "theorems": [
    "Larch.Props.C62_append",
    "Larch.Props.C62_append_duplicate",
    "Larch.Props.C62_delitem",
    "Larch.Props.C62_fails_iadd",
    "Larch.Props.C62_fails_reverse"
   ],
   "note": "`+=` empties the list and reverse() does nothing."
  },
  {
   "property": "C63",
   "status": "proved",
   "theorems": [
    "Larch.Props.C63_value",
    "Larch.Props.C63_gradient",
    "Larch.Props.C63_additive"
   ],
   "note": "The penalty is added once per case (C63_value)."
  },
  {
   "property": "C64",
   "status": "partial",
   "theorems": [
    "Larch.Props.C64_others_partial",
    "Larch.Props.C64_fails_fixed"
   ],
   "note": "FixedBound has no as_soft_penalty, so unmangle raises AttributeError."
  },
  {
   "property": "C65",
   "status": "partial",
   "theorems": [
    "Larch.Props.C65_current_partial",
    "Larch.Props.C65_fails_weight",
    "Larch.Props.C65_fails_weight_removed",
    "Larch.Props.C65_fails_edit",
    "Larch.Props.C65_fails_avail_none",
    "Larch.Props.C65_fails_del",
    "Larch.Props.C65_fails_any"
   ],
   "note": "Proved for every sequence without six kinds of statement that do not mangle the model; violated for those (C65_fails_*)."
  },
  {
   "property": "C66",
   "status": "partial",
   "theorems": [
    "Larch.Props.C66_single_partial",
    "Larch.Props.C66_fails_columns",
    "Larch.Props.C66_fails_avail"
   ],
   "note": "Proved for single expressions; violated for several, since the flow's name is taken from the concatenation of names and expressions."
  },
  {
   "property": "C67",
   "status": "partial",
   "theorems": [
    "Larch.Props.C67_probability_kept_partial",
    "Larch.Props.C67_detached",
    "Larch.Props.C67_fails_probability",
    "Larch.Props.C67_fails_logsums"
   ],
   "note": "Proved for later calls that do not fill the same kind of array, and for all calls after mangle; violated otherwise."
  },
  {
   "property": "C68",
   "status": "partial",
   "theorems": [
    "Larch.Props.C68_bhhh",
    "Larch.Props.C68_scipy_partial",
    "Larch.Props.C68_fails"
   ],
   "note": "Proved for BHHH and for optimizers that evaluate the reported point last; violated for others, since the model keeps the last trial point."
  },
  {
   "property": "C69",
   "status": "partial",
   "theorems": [
    "Larch.Props.C69_default",
    "Larch.Props.C69_given",
    "Larch.Props.C69_fallback",
    "Larch.Props.C69_other_raised",
    "Larch.Props.C69_fails_method2"
   ],
   "note": "Violated only for method2='bhhh', where a failure yields an empty result."
  },
  {
   "property": "C70",
   "status": "partial",
   "theorems": [
    "Larch.Props.C70_bhhh_partial",
    "Larch.Props.C70_fails_bhhh"
   ],
   "note": "The property is FALSE of the code: a shared buffer multiplies each term by (1+ch*w)^2, i.e. 4 for ordinary data; exact value returned is proved."
  },
  {
   "property": "C71",
   "status": "partial",
   "theorems": [
    "Larch.Props.C71_joined",
    "Larch.Props.C71_shared",
    "Larch.Props.C71_fails_given_frame",
    "Larch.Props.C71_fails_membership",
    "Larch.Props.C71_fails_resync",
    "Larch.Props.C71_fails_detached"
   ],
   "note": "Sharing proved for the generic construction; it fails when a frame equal to the joined one exists and after later changes."
  },
  {
   "property": "C72",
   "status": "partial",
   "theorems": [
    "Larch.Props.C72_probability",
    "Larch.Props.C72_nothing_offered",
    "Larch.Props.C72_loglike",
    "Larch.Props.C72_gradient_partial",
    "Larch.Props.C72_bhhh_partial",
    "Larch.Props.C72_held_zero",
    "Larch.Props.C72_fails_duplicate_quantity"
   ],
   "note": "Probabilities and log likelihood hold for every specification and data (utilities below 1e38). The gradient and BHHH matrix are proved for specifications in which no parameter occurs twice in the quantity; otherwise the gradient is wrong (C72_fails_duplicate_quantity: the second loop divides the accumulated entry twice)."
  },
  {
   "property": "C73",
   "status": "partial",
   "theorems": [
    "Larch.Props.C73_utility_partial",
    "Larch.Props.C73_utility_shifted",
    "Larch.Props.C73_fails_utility",
    "Larch.Props.C73_logsum_partial",
    "Larch.Props.C73_logsum_mu_partial",
    "Larch.Props.C73_fails_logsum"
   ],
   "note": "True when no offered utility exceeds 500; otherwise all reported utilities and the logsum are shifted by the largest utility (C73_fails_utility, C73_fails_logsum)."
  },
  {
   "property": "C74",
   "status": "partial",
   "theorems": [
    "Larch.Props.C74_probability",
    "Larch.Props.C74_loglike",
    "Larch.Props.C74_logsum_partial",
    "Larch.Props.C74_logsum_shifted",
    "Larch.Props.C74_fails_logsum"
   ],
   "note": "Probabilities and log likelihood fully; the logsum is wrong by the largest utility when it exceeds 500 (C74_fails_logsum). Real arithmetic with inf/nan, rounding not modelled; positive logsum parameters."
  },
  {
   "property": "C75",
   "status": "partial",
   "theorems": [
    "Larch.Props.C75_gradient_partial",
    "Larch.Props.C75_bhhh_partial",
    "Larch.Props.C75_dprobability_partial",
    "Larch.Props.C75_held_zero",
    "Larch.Props.C75_fails_two_parents",
    "Larch.Props.C75_fails_root_logsum",
    "Larch.Props.C75_fails_unavailable"
   ],
   "note": "Proved when nests have one parent (alternatives may have several), the parameter is not on the root, is not shared between a nest and its descendants or a utility function, and is in at most one quantity term. Outside: concrete counterexamples."
  },
  {
   "property": "C76",
   "status": "partial",
   "theorems": [
    "Larch.Props.C76_probability",
    "Larch.Props.C76_loglike",
    "Larch.Props.C76_gradient_partial",
    "Larch.Props.C76_fails_two_nests"
   ],
   "note": "On trees and dense data. Networks with an alternative in two nests differ: numba gives probability 1/2 to the only alternative (C76_fails_two_nests). Gradient equality excludes chosen probabilities below the numba floor 1e-250 and a root logsum parameter together with utilities above 500."
  },
  {
   "property": "C77",
   "status": "partial",
   "theorems": [
    "Larch.Props.C77_contributions",
    "Larch.Props.C77_average",
    "Larch.Props.C77_choice_totals",
    "Larch.Props.C77_unscale",
    "Larch.Props.C77_total_weight",
    "Larch.Props.C77_results",
    "Larch.Props.C77_fails_no_weights",
    "Larch.Props.C77_fails_total_weight",
    "Larch.Props.C77_fails_no_choices",
    "Larch.Props.C77_needs_nonnegative"
   ],
   "note": "The contributions, results of the compiled nested/network engine and (for choices adding up to one) undoing and total weight are proved for every history of calls. The full statement is false of the code: total_weight changes when weights are embedded in choices, autoscale wipes the weights of data without choices, scale_weights without weight data raises."
  },
  {
   "property": "C78",
   "status": "partial",
   "theorems": [
    "Larch.Props.C78_partition",
    "Larch.Props.C78_blocks",
    "Larch.Props.C78_sizes",
    "Larch.Props.C78_case_rows",
    "Larch.Props.C78_alternative_rows_partial",
    "Larch.Props.C78_too_few",
    "Larch.Props.C78_equal",
    "Larch.Props.C78_weights_partial",
    "Larch.Props.C78_fails_unused_level",
    "Larch.Props.C78_fails_resplit",
    "Larch.Props.C78_fails_normalization"
   ],
   "note": "Partition, sizes, order and rows are proved; the rows of alternatives only if every case level has its place (false otherwise: C78_fails_unused_level), parts of idca data cannot be split again (C78_fails_resplit), parts lose the weight normalization (C78_fails_normalization)."
  },
  {
   "property": "C79",
   "status": "partial",
   "theorems": [
    "Larch.Props.C79_alternative_rows",
    "Larch.Props.C79_case_rows",
    "Larch.Props.C79_aligned",
    "Larch.Props.C79_derived_availability",
    "Larch.Props.C79_fails_weights",
    "Larch.Props.C79_fails_other_ids",
    "Larch.Props.C79_fails_text_codes",
    "Larch.Props.C79_fails_repeated",
    "Larch.Props.C79_fails_case_without_rows"
   ],
   "note": "Proved for frames with the same case ids and levels in increasing order. The code does not check these: weights are not sorted, other ids are accepted, text codes, repeated rows and cases without rows misalign the arrays."
  },
  {
   "property": "C80",
   "status": "partial",
   "theorems": [
    "Larch.Props.C80_as_ce",
    "Larch.Props.C80_round_trip",
    "Larch.Props.C80_needs_rows",
    "Larch.Props.C80_fails_av_unused",
    "Larch.Props.C80_fails_co",
    "Larch.Props.C80_fails_idca",
    "Larch.Props.C80_fails_repeated"
   ],
   "note": "Proved for idce data (no repeated rows). data_co_as_ce raises unless there is a single variable, the idca branches raise, av_as_ce raises when an alternative has no rows."
  },
  {
   "property": "C81",
   "status": "partial",
   "theorems": [
    "Larch.Props.C81_no_repair",
    "Larch.Props.C81_report",
    "Larch.Props.C81_frame",
    "Larch.Props.C81_repaired",
    "Larch.Props.C81_second_run",
    "Larch.Props.C81_usable",
    "Larch.Props.C81_fails_plus",
    "Larch.Props.C81_fails_idce",
    "Larch.Props.C81_fails_wide"
   ],
   "note": "Holds for choice data with a column per alternative and the repairs '-'. Fails: repair_ch_av='+' runs after the zero-quantity check and leaves chosen zero-quantity alternatives (C81_fails_plus); on idce data '+' marks available what has no data row (C81_fails_idce); choices given for nests make repairs raise IndexError or become inconsistent (C81_fails_wide). repair '*' (= '-' then autoscale, C77) and low_variance_data_co are not modelled."
  },
  {
   "property": "C82",
   "status": "partial",
   "theorems": [
    "Larch.Props.C82_availability",
    "Larch.Props.C82_choice_levels",
    "Larch.Props.C82_choice_totals_tree",
    "Larch.Props.C82_fails_network",
    "Larch.Props.C82_fails_again",
    "Larch.Props.C82_numba_choices",
    "Larch.Props.C82_numba_availability"
   ],
   "note": "Availability is right for every graph; choices are right in trees. In a network an alternative in two nests is counted twice at the root (C82_fails_network), and rolling choices already given for the nests counts them again (C82_fails_again)."
  },
  {
   "property": "C83",
   "status": "partial",
   "theorems": [
    "Larch.Props.C83_standardized",
    "Larch.Props.C83_same_model",
    "Larch.Props.C83_idempotent",
    "Larch.Props.C83_fails_co",
    "Larch.Props.C83_fails_ce",
    "Larch.Props.C83_fails_co_masked",
    "Larch.Props.C83_fails_twice"
   ],
   "note": "Holds for idca data. For idco data the call raises unless the number of variables is the number of alternatives (C83_fails_co), and then variables are masked by the availability of alternatives (C83_fails_co_masked); for idce data with missing rows it raises (C83_fails_ce); a second call resets the kept scaling so that same_as does nothing (C83_fails_twice)."
  },
  {
   "property": "C84",
   "status": "partial",
   "theorems": [
    "Larch.Props.C84_reproduces_dense",
    "Larch.Props.C84_reproduces_crack_partial",
    "Larch.Props.C84_reproduces_crack_exact",
    "Larch.Props.C84_constant",
    "Larch.Props.C84_absent",
    "Larch.Props.C84_fill_scalar",
    "Larch.Props.C84_fill_map_partial",
    "Larch.Props.C84_avail_partial",
    "Larch.Props.C84_names_stored_partial",
    "Larch.Props.C84_frame_partial",
    "Larch.Props.C84_rejects_duplicates",
    "Larch.Props.C84_accepts",
    "Larch.Props.C84_query",
    "Larch.Props.C84_fails_avail",
    "Larch.Props.C84_fails_avail_name",
    "Larch.Props.C84_fails_fill_map",
    "Larch.Props.C84_fails_names",
    "Larch.Props.C84_fails_frame",
    "Larch.Props.C84_fails_unused",
    "Larch.Props.C84_fails_query_ce",
    "Larch.Props.C84_fails_crack_close",
    "Larch.Props.C84_fails_crack_nan"
   ],
   "note": "Values of all rows are reproduced (exactly with crack=False; with crack=True up to 2*sqrt(n)*1e-10, exactly if values are equal or further apart), availability without fill_missing, scalar fill, rejection of duplicates: proved. The code violates the rest: a scalar fill_missing also fills the availability variable itself (absent alternatives become available), fill_missing with another availability name or with a mapping by variable is a KeyError, names are stored under a coordinate that is never read, text labels change the caller's frame and an unused one is an error, crack=True replaces NaN and close values, query_cases on idce data leaves rows and case pointers unfiltered."
  },
  {
   "property": "C85",
   "status": "partial",
   "theorems": [
    "Larch.Props.C85_required_ca",
    "Larch.Props.C85_required_co",
    "Larch.Props.C85_required_aux",
    "Larch.Props.C85_columns",
    "Larch.Props.C85_columns_unknown",
    "Larch.Props.C85_choice_code",
    "Larch.Props.C85_choice_co_partial",
    "Larch.Props.C85_fails_choice_co_order",
    "Larch.Props.C85_fails_choice_co_shared",
    "Larch.Props.C85_fails_choice_unknown",
    "Larch.Props.C85_choice_ca",
    "Larch.Props.C85_weight",
    "Larch.Props.C85_fails_weight_unknown",
    "Larch.Props.C85_avail_co_partial",
    "Larch.Props.C85_fails_avail_co_order",
    "Larch.Props.C85_numba_choice_co",
    "Larch.Props.C85_numba_avail_co",
    "Larch.Props.C85_engines_code",
    "Larch.Props.C85_engines_choice_co_partial",
    "Larch.Props.C85_numba_named_partial",
    "Larch.Props.C85_fails_numba_transposed"
   ],
   "note": "The request and the columns are right in general, and so are choices by code and the numba engine's choices and availability by expressions. The compiled engine with pyarrow sorts columns: choices by expressions go to the wrong alternatives whenever the expressions are not in alphabetical order, availability whenever the codes are not ascending; repeated expressions make loading fail; unknown names in choices and weights are silently ignored. The numba engine reads a named variable stored with alternatives first as if transposed."
  },
  {
   "property": "C86",
   "status": "partial",
   "theorems": [
    "Larch.Props.C86_columns",
    "Larch.Props.C86_unavailable_partial",
    "Larch.Props.C86_totals",
    "Larch.Props.C86_fails_no_availability",
    "Larch.Props.C86_fails_no_choices",
    "Larch.Props.C86_dataset_partial",
    "Larch.Props.C86_fails_dataset_no_availability",
    "Larch.Props.C86_fails_dataset_weights",
    "Larch.Props.C86_fails_dataset_square",
    "Larch.Props.C86_fails_dataset_unavailable",
    "Larch.Props.C86_graph_tables",
    "Larch.Props.C86_graph_chosen",
    "Larch.Props.C86_fails_graph_unavailable",
    "Larch.Props.C86_graph_engines"
   ],
   "note": "The compiled engine's columns and totals are right, also in nesting trees; but without availability every choice is reported as unavailable, with availability and no choices it raises, and with a graph the total of unavailable choices counts only cases with nothing available. The summary of datasets agrees without weights; with weights it raises unless there are as many cases as columns, and then weights the alternatives by the wrong cases and shows them in the wrong rows."
  },
  {
   "property": "C87",
   "status": "partial",
   "theorems": [
    "Larch.Props.C87_single",
    "Larch.Props.C87_all",
    "Larch.Props.C87_rescan",
    "Larch.Props.C87_rho",
    "Larch.Props.C87_fails_interrupt",
    "Larch.Props.C87_fails_unscanned",
    "Larch.Props.C87_rho_held"
   ],
   "note": "Result and restoration proved for every frame (with complete initial and null values), every log likelihood function, one or many parameters; re-scanning covered. Violations proved: an evaluation that raises leaves the parameter at the reference value; the adjusted rho squared of a model not yet scanned counts no parameters."
  },
  {
   "property": "C88",
   "status": "partial",
   "theorems": [
    "Larch.Props.C88_cap",
    "Larch.Props.C88_all",
    "Larch.Props.C88_fails_missing",
    "Larch.Props.C88_fails_value",
    "Larch.Props.C88_missing"
   ],
   "note": "Intersection proved for all bounds that are given. Violations proved: a missing bound on one side leaves the other side uncapped; values are not moved into the new range."
  },
  {
   "property": "C89",
   "status": "proved",
   "theorems": [
    "Larch.Props.C89_partition",
    "Larch.Props.C89_rows",
    "Larch.Props.C89_plain",
    "Larch.Props.C89_order"
   ],
   "note": "Any ordering, any matching relation, any sorting function that permutes."
  },
  {
   "property": "C90",
   "status": "partial",
   "theorems": [
    "Larch.Props.C90_probability",
    "Larch.Props.C90_utility",
    "Larch.Props.C90_exputility",
    "Larch.Props.C90_idca",
    "Larch.Props.C90_idce",
    "Larch.Props.C90_numba",
    "Larch.Props.C90_numba_logsums_into",
    "Larch.Props.C90_fails_no_co",
    "Larch.Props.C90_fails_negative_stop",
    "Larch.Props.C90_fails_mnl_nests",
    "Larch.Props.C90_fails_idce_slice",
    "Larch.Props.C90_fails_x",
    "Larch.Props.C90_numba_fails_quantity",
    "Larch.Props.C90_numba_fails_dataarray",
    "Larch.Props.C90_numba_logsums_length"
   ],
   "note": "Labels proved right for compiled models with idco data and in-range slices, and for numba models for every slice. Violations proved: without idco data rows get positions instead of case identifiers; negative stop, include_nests on MNL models, the available-only format on a slice, labelled quantities of a slice and data arrays without nests raise; compiled utility and exputility ignore the parameter values passed."
  },
  {
   "property": "C91",
   "status": "partial",
   "theorems": [
    "Larch.Props.C91_proba",
    "Larch.Props.C91_predict",
    "Larch.Props.C91_score",
    "Larch.Props.C91_score_weighted",
    "Larch.Props.C91_fails_labels",
    "Larch.Props.C91_fails_order",
    "Larch.Props.C91_fails_weighted"
   ],
   "note": "Probabilities and predictions proved for all data; scores for rows in the order of the data (and 0/1 choices when weighted). Violations proved: cases are relabelled 0,1,2,\u2026; rows in another order are scored against the wrong alternatives; with shared choices unit weights change the score."
  },
  {
   "property": "C92",
   "status": "partial",
   "theorems": [
    "Larch.Props.C92_names",
    "Larch.Props.C92_kept",
    "Larch.Props.C92_new",
    "Larch.Props.C92_loglike",
    "Larch.Props.C92_again",
    "Larch.Props.C92_fails_constraints",
    "Larch.Props.C92_fails_missing"
   ],
   "note": "Names, settings, log likelihood and idempotence proved for all frames. Violations proved: constraints keep the positions they were linked with; a missing (NaN) setting is replaced by the default."
  },
  {
   "property": "C93",
   "status": "partial",
   "theorems": [
    "Larch.Props.C93_pickle",
    "Larch.Props.C93_unscanned",
    "Larch.Props.C93_twice",
    "Larch.Props.C93_copy",
    "Larch.Props.C93_copy_numba",
    "Larch.Props.C93_clone",
    "Larch.Props.C93_fails_constraints",
    "Larch.Props.C93_fails_best",
    "Larch.Props.C93_fails_dashboard",
    "Larch.Props.C93_fails_no_graph",
    "Larch.Props.C93_fails_copy",
    "Larch.Props.C93_fails_root",
    "Larch.Props.C93_fails_predict",
    "Larch.Props.C93_fails_penalty",
    "Larch.Props.C93_fails_clone_constraints",
    "Larch.Props.C93_fails_clone_nests",
    "Larch.Props.C93_clone_numba",
    "Larch.Props.C93_data_structure",
    "Larch.Props.C93_copy_structureless"
   ],
   "note": "Specification, structure, parameter settings proved for pickling and (with a data service) copying, and for compiled clones without constraints. Violations proved: constraints and best estimates are lost, the dashboard is removed from the original, a numba model without structure cannot be loaded, a model without data service cannot be copied, numba copies lose another root than 0, loaded models cannot predict, NumbaModel(m) resets the penalty settings, constructing with constraints raises, numba models constructed with a graph ignore it."
  },
  {
   "property": "C94",
   "status": "partial",
   "theorems": [
    "Larch.Props.C94_tree_partial",
    "Larch.Props.C94_alternatives_partial",
    "Larch.Props.C94_listed",
    "Larch.Props.C94_sequence",
    "Larch.Props.C94_unknown_raises",
    "Larch.Props.C94_fails_omitted",
    "Larch.Props.C94_fails_same_name",
    "Larch.Props.C94_fails_empty_nest",
    "Larch.Props.C94_fails_alternative_as_nest",
    "Larch.Props.C94_fails_root_listed"
   ],
   "note": "Proved by induction over arbitrarily deep settings: for well-formed settings (Spec/Nesting.Sensible) the result is exactly the described tree. Refusal holds only for unknown names (C94_unknown_raises, all settings); omitted alternatives, repeated nest names, empty nests, a nest named like an alternative and a listed 'root' are accepted silently with another structure (the _fails theorems), so the full statement is false of the code."
  },
  {
   "property": "C95",
   "status": "partial",
   "theorems": [
    "Larch.Props.C95_values",
    "Larch.Props.C95_others",
    "Larch.Props.C95_init",
    "Larch.Props.C95_bounds",
    "Larch.Props.C95_read_back",
    "Larch.Props.C95_update",
    "Larch.Props.C95_twice",
    "Larch.Props.C95_fails_bounds",
    "Larch.Props.C95_fails_many",
    "Larch.Props.C95_fails_constant"
   ],
   "note": "Values, flags, untouched parameters, reading back and idempotence are proved for all tables and frames. The claim about bounds is false of the code: without bounds in the call they become NaN (C95_fails_bounds), for a dictionary of models given bounds are dropped (C95_fails_many); and a numeric-named constant listed in the table is released (C95_fails_constant)."
  },
  {
   "property": "C96",
   "status": "partial",
   "theorems": [
    "Larch.Props.C96_value",
    "Larch.Props.C96_segments",
    "Larch.Props.C96_own_segment",
    "Larch.Props.C96_no_segment",
    "Larch.Props.C96_alternatives",
    "Larch.Props.C96_fails_placeholder"
   ],
   "note": "Values, absence of exceptions and assignability proved for all specs, by the meaning of the expression texts (C27's Python grammar), numeric segment identifiers. That only parameters of the spec are mentioned is false: an empty segment column leaves a term with the placeholder parameter `_` (C96_fails_placeholder)."
  },
  {
   "property": "C97",
   "status": "proved",
   "theorems": [
    "Larch.Props.C97_alternatives",
    "Larch.Props.C97_codes",
    "Larch.Props.C97_injective"
   ],
   "note": ""
  },
  {
   "property": "C98",
   "status": "partial",
   "theorems": [
    "Larch.Props.C98_base",
    "Larch.Props.C98_single",
    "Larch.Props.C98_only",
    "Larch.Props.C98_fails_prefixed"
   ],
   "note": "False as stated when the columns include both x and p1_x: the replacements are applied one after the other and the prefixed name is prefixed again (C98_fails_prefixed). Proved for all households, specifications and data when no prefixed name is itself a column to be prefixed."
  },
  {
   "property": "C99",
   "status": "partial",
   "theorems": [
    "Larch.Props.C99_value",
    "Larch.Props.C99_own",
    "Larch.Props.C99_named",
    "Larch.Props.C99_fails_sizes"
   ],
   "note": "The contribution of each row is proved in full (C99_value), as is which parameter is used (C99_own, C99_named). The clause that the named parameter depends on the cardinality is false: rows without person types are looked up under the empty type string whatever their cardinality, so households of three get the parameter for four (C99_fails_sizes)."
  }
 ]
}