{
 "claims": [
  {
   "property": "C01",
   "status": "proved",
   "theorems": [
    "Patsy.Props.coding_exact_cover",
    "Patsy.Props.coding_adds_exactly_new_effects"
   ],
   "note": "for every term list; hypothesis: the hash separates the pieces that occur (see C04)"
  },
  {
   "property": "C02",
   "status": "proved",
   "theorems": [
    "Patsy.Props.coding_never_fails",
    "Patsy.Props.simplify_preserves_effects"
   ],
   "note": "any hash, any history; termination is the well-founded definition of Redundancy.simplify"
  },
  {
   "property": "C03",
   "status": "proved",
   "theorems": [
    "Patsy.Props.categorical_basis",
    "Patsy.Props.builders_basis",
    "Patsy.Props.columns_independent",
    "Patsy.Props.columns_span",
    "Patsy.Props.builtin_good"
   ],
   "note": "For purely categorical terms on data with every combination of levels (categorical_basis; builders_basis for what design_matrix_builders makes) the columns are linearly independent and span the sum of the term spaces; columns_independent/columns_span include numerical factors. builtin_good: Treatment, Sum, Helmert and Diff meet the hypothesis on the contrasts. Over an arbitrary field, so no rounding."
  },
  {
   "property": "C04",
   "status": "proved",
   "theorems": [
    "Patsy.Props.coding_exact_cover_of_injective",
    "Patsy.Props.coding_under_collisions",
    "Patsy.Props.collision_loses_columns"
   ],
   "note": "the code compares hashes only (redundancy.py:105-106); loss under collision is proved as a witness"
  },
  {
   "property": "C05",
   "status": "proved",
   "theorems": [
    "Patsy.Props.parse_iff_grammar",
    "Patsy.Props.grammar_unambiguous",
    "Patsy.Props.parse_formula_iff"
   ],
   "note": "all operator tables and token sequences; infix_parser.py modelled completely"
  },
  {
   "property": "C06",
   "status": "proved",
   "theorems": [
    "Patsy.Props.parse_total",
    "Patsy.Props.parse_empty_crashes",
    "Patsy.Props.python_tokenize_total",
    "Patsy.Props.parse_formula_total"
   ],
   "note": "non-empty input: tree or PatsyError; empty input: IndexError"
  },
  {
   "property": "C07",
   "status": "proved",
   "theorems": [
    "Patsy.Props.parse_positions",
    "Patsy.Props.span_spec",
    "Patsy.Props.parse_positions_nested"
   ],
   "note": "tokens in source order"
  },
  {
   "property": "C08",
   "status": "proved",
   "theorems": [
    "Patsy.Props.eval_normal",
    "Patsy.Props.eval_total"
   ],
   "note": "For every parse tree, every factor constructor and every int(). eval_total: no assertion of the evaluator can fail."
  },
  {
   "property": "C09",
   "status": "proved",
   "theorems": [
    "Patsy.Props.plus_union",
    "Patsy.Props.minus_difference",
    "Patsy.Props.tilde_sides",
    "Patsy.Props.interact_pairs",
    "Patsy.Props.prod_expands",
    "Patsy.Props.div_nests",
    "Patsy.Props.intercept_cannot_interact"
   ],
   "note": "Operands are arbitrary parse trees that evaluate; literal 0/1 operands of + and - are the subject of C11."
  },
  {
   "property": "C10",
   "status": "proved",
   "theorems": [
    "Patsy.Props.power_is_product",
    "Patsy.Props.power_illegal"
   ],
   "note": "Term lists literally equal, for every expression and exponent; int() of the literal is a parameter."
  },
  {
   "property": "C11",
   "status": "proved",
   "theorems": [
    "Patsy.Props.flatSum_intercept",
    "Patsy.Props.plus_minus_one_keeps_intercept",
    "Patsy.Props.invisible_one_is_visible",
    "Patsy.Props.parenthesised_anti_intercept"
   ],
   "note": "Subtracted ones and zeros (x - 1), not added unary minus (x + -1): for the latter, for -1 + x and for parenthesised anti-intercepts the documentation disagrees with the code; the disagreements are proved with concrete witnesses."
  },
  {
   "property": "C12",
   "status": "proved",
   "theorems": [
    "Patsy.Props.describe_roundtrip",
    "Patsy.Props.describe_roundtrip_formula",
    "Patsy.Props.describe_roundtrip_text"
   ],
   "note": "At the level of formula tokens: describe() is modelled as the token sequence of its string. Hypothesis: constructing a factor from the name of a constructed factor gives it back. describe_roundtrip_text is the claim for the text of a formula, down to Python tokens."
  },
  {
   "property": "C13",
   "status": "proved",
   "theorems": [
    "Patsy.Props.tokenize_iff",
    "Patsy.Props.tokenize_total",
    "Patsy.Props.tokenize_increasing",
    "Patsy.Props.python_tokenize_iff"
   ],
   "note": "iff with a declarative segmentation; Python's own tokenizer is a parameter. Bracket kinds are not matched by the code (example in Props/Tokens)"
  },
  {
   "property": "C14",
   "status": "proved",
   "theorems": [
    "Patsy.Props.untokenize_spaced",
    "Patsy.Props.untokenize_same_ink",
    "Patsy.Props.untokenize_indent_crashes",
    "Patsy.Props.untokenize_not_injective",
    "Patsy.Props.untokenize_leading_blank",
    "Patsy.Props.normalize_spacing",
    "Patsy.Props.untokenize_layout"
   ],
   "note": "printing keeps tokens and order; limits of the normalisation are proved as witnesses. untokenize_layout says exactly where blanks are put (Spec/Blanks.lean), for code in which no bracket is closed that was not opened."
  },
  {
   "property": "C15",
   "status": "proved",
   "theorems": [
    "Patsy.Props.build_keeps_complete_rows",
    "Patsy.Props.kept_iff",
    "Patsy.Props.raise_iff",
    "Patsy.Props.raise_error",
    "Patsy.Props.drop_again",
    "Patsy.Props.na_action_iff",
    "Patsy.Props.na_string_iff"
   ],
   "note": "for arbitrary designs accepted by DesignInfo, arbitrary factor evaluation; isnan is a parameter"
  },
  {
   "property": "C16",
   "status": "proved",
   "theorems": [
    "Patsy.Props.rows_independent",
    "Patsy.Props.two_chunks_matrices",
    "Patsy.Props.two_chunks",
    "Patsy.Props.chunked_build"
   ],
   "note": "for factors whose evaluation is row-wise (state fixed by the design); the case of no known number of rows is excluded"
  },
  {
   "property": "C17",
   "status": "proved",
   "theorems": [
    "Patsy.Props.combinations_order",
    "Patsy.Props.interaction_columns",
    "Patsy.Props.interaction_built",
    "Patsy.Props.interaction_names"
   ],
   "note": "the model covers _column_combinations, _subterm_column_combinations, _subterm_column_names_iter and _build_subterm; entries from an arbitrary type with a product"
  },
  {
   "property": "C18",
   "status": "proved",
   "theorems": [
    "Patsy.Props.term_order",
    "Patsy.Props.design_term_order",
    "Patsy.Props.inOrder_unique"
   ],
   "note": "InOrder is an independent description of doc/formulas.rst:379-404; inOrder_unique shows that it determines the result."
  },
  {
   "property": "C19",
   "status": "proved",
   "theorems": [
    "Patsy.Props.columns_exact",
    "Patsy.Props.columns_cover",
    "Patsy.Props.slice_unknown",
    "Patsy.Props.columns_exact_plain"
   ],
   "note": "for designs accepted by DesignInfo.__init__; integer positions and general slices: C79"
  },
  {
   "property": "C20",
   "status": "proved",
   "theorems": [
    "Patsy.Props.subset_columns",
    "Patsy.Props.subset_built_together",
    "Patsy.Props.subset_built_alone",
    "Patsy.Props.subset_total",
    "Patsy.Props.subset_unknown",
    "Patsy.Props.subset_formula",
    "Patsy.Props.subset_formula_refused",
    "Patsy.Props.subset_plain"
   ],
   "note": "Built together with the full design for all data; built alone when the rows dropped by the full design are dropped by the subset too (otherwise the subset keeps more rows: see the note in DESIGN.md). Designs without coding: subset_plain."
  },
  {
   "property": "C21",
   "status": "proved",
   "theorems": [
    "Patsy.Props.memorize_protocol",
    "Patsy.Props.memorize_order_irrelevant"
   ],
   "note": "Exceptions raised by factor methods are not modelled; data_iter_maker may return different data at each call"
  },
  {
   "property": "C22",
   "status": "proved",
   "theorems": [
    "Patsy.Props.memorize_passes",
    "Patsy.Props.memorize_inside_out",
    "Patsy.Props.memorize_reserved",
    "Patsy.Props.nested_iff_tree"
   ],
   "note": "Token level: printing and re-tokenising code is taken as the identity; brackets must be properly nested (ast.parse rejects other code). With a reserved name the code raises NameError instead of PatsyError."
  },
  {
   "property": "C23",
   "status": "proved",
   "theorems": [
    "Patsy.Props.center_batch",
    "Patsy.Props.standardize_batch",
    "Patsy.Props.center_chunks_irrelevant",
    "Patsy.Props.standardize_chunks_irrelevant",
    "Patsy.Props.center_call",
    "Patsy.Props.standardize_call",
    "Patsy.Props.standardized_moments"
   ],
   "note": "Exact arithmetic in a field of characteristic zero; dtypes (e.g. boolean input, for which center() casts the mean to bool) are not modelled"
  },
  {
   "property": "C24",
   "status": "partial",
   "theorems": [
    "Patsy.Props.levels_examined",
    "Patsy.Props.levels_chunks_irrelevant",
    "Patsy.Props.levels_declared",
    "Patsy.Props.levels_pandas",
    "Patsy.Props.levels_boolean",
    "Patsy.Props.levels_depend_on_chunks",
    "Patsy.Props.levels_nested",
    "Patsy.Props.levels_chunks_irrelevant_iff"
   ],
   "note": "Independence of chunking is false in general (levels_depend_on_chunks: [0,1],[2] vs [0,1,2]); proved exactly which chunks determine the levels, and independence whenever the data do not show both 0/False and 1/True next to other levels. levels_chunks_irrelevant_iff says exactly for which data the claim holds."
  },
  {
   "property": "C25",
   "status": "partial",
   "theorems": [
    "Patsy.Props.codes_correct",
    "Patsy.Props.codes_unknown_rejected",
    "Patsy.Props.codes_boolean",
    "Patsy.Props.codes_boolean_keyError",
    "Patsy.Props.codes_levels_mismatch",
    "Patsy.Props.codes_pandas",
    "Patsy.Props.codes_boxed_pandas",
    "Patsy.Props.codes_of_levels",
    "Patsy.Props.codes_later_chunk_rejected",
    "Patsy.Props.codes_boxed_pandas_rejected",
    "Patsy.Props.nan_string_is_missing",
    "Patsy.Props.missing_documented"
   ],
   "note": "Faithfulness and rejection proved for all data other than strings like 'nan' (treated as missing, nan_string_is_missing) and integers beyond the float range; boolean arrays without matching levels raise KeyError instead of PatsyError; data used for detection can be rejected only when detection stopped early (codes_later_chunk_rejected)."
  },
  {
   "property": "C26",
   "status": "proved",
   "theorems": [
    "Patsy.Props.treatment_meaning",
    "Patsy.Props.dummy_meaning",
    "Patsy.Props.sum_meaning",
    "Patsy.Props.helmert_meaning",
    "Patsy.Props.diff_meaning",
    "Patsy.Props.poly_meaning",
    "Patsy.Props.full_isUnit",
    "Patsy.Props.reduced_isUnit",
    "Patsy.Props.chosenLevel_lt",
    "Patsy.Props.poly_names"
   ],
   "note": "IsReduced/IsFull state shape, suffix count and unique coefficients for every vector of cell means; invertibility of the matrix follows by full_isUnit/reduced_isUnit. Exact arithmetic; argsort and qr are parameters with contracts. poly_names: the columns of Poly are named by degree."
  },
  {
   "property": "C27",
   "status": "proved",
   "theorems": [
    "Patsy.Props.treatment_meaning",
    "Patsy.Props.dummy_meaning",
    "Patsy.Props.sum_meaning",
    "Patsy.Props.helmert_meaning",
    "Patsy.Props.diff_meaning",
    "Patsy.Props.poly_columns",
    "Patsy.Props.poly_qr_irrelevant",
    "Patsy.Props.poly_meaning",
    "Patsy.Props.level_by_value",
    "Patsy.Props.level_by_position",
    "Patsy.Props.level_unknown",
    "Patsy.Props.code_contrast_matrix_cases",
    "Patsy.Props.default_levels"
   ],
   "note": "Diff documentation about the intercept is wrong (grand mean, not first level); Helmert coefficient carries the factor 1/(j+2). Default levels of Treatment and Sum: default_levels."
  },
  {
   "property": "C28",
   "status": "proved",
   "theorems": [
    "Patsy.Props.constraint_meaning",
    "Patsy.Props.constraint_accepted",
    "Patsy.Props.constraint_failures",
    "Patsy.Props.strings_meaning",
    "Patsy.Props.string_meaning",
    "Patsy.Props.mapping_meaning",
    "Patsy.Props.tuple_meaning",
    "Patsy.Props.array_meaning",
    "Patsy.Props.row_meaning",
    "Patsy.Props.con_meaning",
    "Patsy.Props.vector_valuation",
    "Patsy.Props.constraint_tokens_iff",
    "Patsy.Props.parse_constraint_iff",
    "Patsy.Props.blank_constraint_crashes",
    "Patsy.Props.mapping_duplicates_partial"
   ],
   "note": "Exact arithmetic over a field. The tree is the library's; for the usual precedence see C39. Division by zero is an error of the model (NumPy: nan/inf)."
  },
  {
   "property": "C29",
   "status": "proved",
   "theorems": [
    "Patsy.Props.factor_lookup_order",
    "Patsy.Props.factor_eval_keeps_scopes",
    "Patsy.Props.factor_env_snapshot",
    "Patsy.Props.capture_depth",
    "Patsy.Props.capture_too_deep",
    "Patsy.Props.capture_env",
    "Patsy.Props.stateful_call_ignores_data",
    "Patsy.Props.factor_env_exact",
    "Patsy.Props.lookup_dict_protocol"
   ],
   "note": "Code is an arbitrary interaction tree of loads and stores of names. Exception shown by a witness: the name of a called stateful transform."
  },
  {
   "property": "C30",
   "status": "proved",
   "theorems": [
    "Patsy.Props.row_tensor_product",
    "Patsy.Props.kron_entry",
    "Patsy.Props.row_tensor_product_rejects",
    "Patsy.Props.row_tensor_product_empty_crashes"
   ],
   "note": "All lists of matrices with at least one column each; without columns the function can crash (witness)."
  },
  {
   "property": "C31",
   "status": "proved",
   "theorems": [
    "Patsy.Props.cyclic_map",
    "Patsy.Props.interval_search"
   ],
   "note": "exact real arithmetic; NumPy's searchsorted on sorted knots is the number of knots before the value"
  },
  {
   "property": "C32",
   "status": "partial",
   "theorems": [
    "Patsy.Props.natural_row_at_knot",
    "Patsy.Props.natural_row_sums_to_one",
    "Patsy.Props.natural_two_knots_crash",
    "Patsy.Props.cyclic_row_at_knot",
    "Patsy.Props.cyclic_row_sums_to_one_partial",
    "Patsy.Props.cyclic_few_knots_sum"
   ],
   "note": "natural splines: in full for at least three knots (two crash); cyclic: unit vectors for any number of knots, sum one for at least three free knots; with one or two free knots the claim is false (proved)"
  },
  {
   "property": "C33",
   "status": "proved",
   "theorems": [
    "Patsy.Props.spline_knots_computed",
    "Patsy.Props.spline_knots_given",
    "Patsy.Props.cr_columns",
    "Patsy.Props.cr_columns_of_knots",
    "Patsy.Props.cr_accepts",
    "Patsy.Props.cr_two_columns_crash",
    "Patsy.Props.bs_columns",
    "Patsy.Props.bs_columns_of_knots",
    "Patsy.Props.bs_range",
    "Patsy.Props.bs_accepts"
   ],
   "note": "The number of columns is df whenever a spline is accepted and evaluated; exact conditions of acceptance for computed knots. scipy's splev and qr are arbitrary functions here."
  },
  {
   "property": "C34",
   "status": "proved",
   "theorems": [
    "Patsy.Props.balanced_counts",
    "Patsy.Props.balanced_shape",
    "Patsy.Props.balanced_rows",
    "Patsy.Props.balanced_documented",
    "Patsy.Props.balanced_no_rows",
    "Patsy.Props.demo_data_succeeds",
    "Patsy.Props.demo_data_balanced",
    "Patsy.Props.demo_data_n",
    "Patsy.Props.demo_data_no_levels"
   ],
   "note": "For distinct factor names with at least one level each. Random numbers are a parameter; integers and the quotient of row counts are exact."
  },
  {
   "property": "C35",
   "status": "proved",
   "theorems": [
    "Patsy.Props.uniqueify_first",
    "Patsy.Props.uniqueify_spec",
    "Patsy.Props.uniqueify_algebra"
   ],
   "note": "util.uniqueify over an arbitrary equivalence (Python == with hash); used for Term, ModelDesc and IntermediateExpr."
  },
  {
   "property": "C36",
   "status": "proved",
   "theorems": [
    "Patsy.Props.entry_points",
    "Patsy.Props.same_rows",
    "Patsy.Props.no_outcome",
    "Patsy.Props.matrices_outcome",
    "Patsy.Props.outcome",
    "Patsy.Props.incremental",
    "Patsy.Props.bad_requests",
    "Patsy.Props.empty_outcome_accepted",
    "Patsy.Props.name_column_crashes",
    "Patsy.Props.explicit_matrices",
    "Patsy.Props.explicit_accepted",
    "Patsy.Props.array_accepted",
    "Patsy.Props.frame_accepted"
   ],
   "note": "a left-hand side without columns counts as none (empty_outcome_accepted); pandas assumed installed"
  },
  {
   "property": "C37",
   "status": "proved",
   "theorems": [
    "Patsy.Props.greedy_not_minimal"
   ],
   "note": "negative answer to the documented exercise, by witness"
  },
  {
   "property": "C38",
   "status": "proved",
   "theorems": [
    "Patsy.Props.groups_covered_once",
    "Patsy.Props.makeSubtermInfos_total"
   ],
   "note": "Hash separation as in C04."
  },
  {
   "property": "C39",
   "status": "partial",
   "theorems": [
    "Patsy.Props.constraint_usual_meaning",
    "Patsy.Props.usual_reading_unique",
    "Patsy.Props.sign_after_division"
   ],
   "note": "The code violates the claim for a sign directly after a division sign (witness); proved for all other texts."
  },
  {
   "property": "C40",
   "status": "partial",
   "theorems": [
    "Patsy.Props.quote_of_data",
    "Patsy.Props.quote_misses_environment",
    "Patsy.Props.quote_value_iff"
   ],
   "note": "The code violates the claim for variables of the environment (witness); proved for names in the data. quote_value_iff says exactly when Q finds a variable: data, transform objects of the factor, or an environment name that the same code also mentions."
  },
  {
   "property": "C41",
   "status": "proved",
   "theorems": [
    "Patsy.Props.natural_spline_space"
   ],
   "note": "both directions, for at least three knots; solve_banded is exact"
  },
  {
   "property": "C42",
   "status": "partial",
   "theorems": [
    "Patsy.Props.cyclic_row_of_integers_partial",
    "Patsy.Props.cyclic_row_of_integers_inside_partial",
    "Patsy.Props.cyclic_row_of_integers_differs",
    "Patsy.Props.cyclic_place_of_integers_iff",
    "Patsy.Props.cyclic_row_of_integers_at_integers_partial"
   ],
   "note": "the general claim is false (witness); true for integer bounds and within the knots. ; exactly, the place in the period is the same iff it is an integer"
  },
  {
   "property": "C43",
   "status": "partial",
   "theorems": [
    "Patsy.Props.cyclic_spline_space_partial",
    "Patsy.Props.cyclic_few_knots_miss_constants"
   ],
   "note": "both directions for at least three free knots; false for one or two (proved)"
  },
  {
   "property": "C44",
   "status": "partial",
   "theorems": [
    "Patsy.Props.absorbed_constraints_hold",
    "Patsy.Props.absorbed_constraints_complete_partial",
    "Patsy.Props.absorbed_constraints_lose_columns",
    "Patsy.Props.cr_constrained_space_partial",
    "Patsy.Props.center_constraint",
    "Patsy.Props.cr_center_space",
    "Patsy.Props.cr_center_columns",
    "Patsy.Props.te_center_columns",
    "Patsy.Props.absorbed_constraints_complete_iff",
    "Patsy.Props.cr_constrained_space_iff"
   ],
   "note": "Every combination of constrained columns satisfies the constraints. The converse is proved for independent constraints (centering is one of them) and refuted for dependent ones. absorbed_constraints_complete_iff and cr_constrained_space_iff say exactly for which constraints the claim holds."
  },
  {
   "property": "C45",
   "status": "proved",
   "theorems": [
    "Patsy.Props.spline_chunks",
    "Patsy.Props.te_chunks"
   ],
   "note": "te: two adjacent chunks of equal shape can be replaced by the stacked chunk, anywhere in a sequence of chunks."
  },
  {
   "property": "C46",
   "status": "proved",
   "theorems": [
    "Patsy.Props.builders_consistent"
   ],
   "note": "for the model of design_matrix_builders; memorisation enters as a parameter"
  },
  {
   "property": "C47",
   "status": "proved",
   "theorems": [
    "Patsy.Props.examined_alone",
    "Patsy.Props.examined_independent",
    "Patsy.Props.examined_iff",
    "Patsy.Props.builders_treat",
    "Patsy.Props.builders_independent",
    "Patsy.Props.builders_no_data"
   ],
   "note": "traversal orders are arbitrary permutations; the order in which levels are sorted is the parameter of C14"
  },
  {
   "property": "C48",
   "status": "proved",
   "theorems": [
    "Patsy.Props.rebuild_dmatrix",
    "Patsy.Props.rebuild_dmatrices",
    "Patsy.Props.incremental"
   ],
   "note": "memorisation is a parameter of the model of design_matrix_builders"
  },
  {
   "property": "C49",
   "status": "proved",
   "theorems": [
    "Patsy.Props.same_space",
    "Patsy.Props.nested_models",
    "Patsy.Props.same_width"
   ],
   "note": "over any field; hypotheses as in C03 (no hash collisions, admissible contrasts)"
  },
  {
   "property": "C50",
   "status": "proved",
   "theorems": [
    "Patsy.Props.column_count",
    "Patsy.Props.column_count_eq"
   ],
   "note": "for contrasts of the usual widths (n - 1 reduced, n full), which all contrasts of patsy have"
  },
  {
   "property": "C51",
   "status": "proved",
   "theorems": [
    "Patsy.Props.bs_splines",
    "Patsy.Props.bs_splines_from_zero",
    "Patsy.Props.bs_independent",
    "Patsy.Props.bs_partition",
    "Patsy.Props.bs_lower_knot",
    "Patsy.Props.bs_upper_knot"
   ],
   "note": "Spline space, partition of unity and independence for every splev that evaluates B-splines (Splev.splev_evaluates: FITPACK's algorithm does); the two failing cases with an inner knot at a bound are theorems."
  },
  {
   "property": "C52",
   "status": "proved",
   "theorems": [
    "Patsy.Props.builders_accepted",
    "Patsy.Props.design_accepted",
    "Patsy.Props.usual_readable",
    "Patsy.Props.builtin_suffixes",
    "Patsy.Props.poly_suffixes",
    "Patsy.Props.ambiguous_names",
    "Patsy.Props.ambiguous_levels"
   ],
   "note": "design_accepted: for every list of different terms whose labels can be told apart (Spec.Readable) the design is made; usual_readable, builtin_suffixes, poly_suffixes, builders_accepted: names with balanced brackets and the contrasts of patsy give such labels, for all that design_matrix_builders does after the types are known; witnesses show that the hypotheses are needed."
  },
  {
   "property": "C53",
   "status": "proved",
   "theorems": [
    "Patsy.Props.formula_semantics",
    "Patsy.Props.expression_semantics",
    "Patsy.Props.means_unique",
    "Patsy.Props.plus_assoc",
    "Patsy.Props.plus_comm",
    "Patsy.Props.plus_self",
    "Patsy.Props.minus_plus",
    "Patsy.Props.minus_self",
    "Patsy.Props.colon_comm",
    "Patsy.Props.colon_assoc",
    "Patsy.Props.colon_self",
    "Patsy.Props.colon_distrib_right",
    "Patsy.Props.star_comm",
    "Patsy.Props.star_assoc",
    "Patsy.Props.star_expand",
    "Patsy.Props.slash_assoc",
    "Patsy.Props.slash_distrib",
    "Patsy.Props.slash_expand",
    "Patsy.Props.slash_two",
    "Patsy.Props.power_power",
    "Patsy.Props.power_mul",
    "Patsy.Props.power_exercise",
    "Patsy.Props.same_left",
    "Patsy.Props.same_right",
    "Patsy.Props.same_model",
    "Patsy.Props.star_drops_removal",
    "Patsy.Props.zero_not_associative",
    "Patsy.Props.slash_not_left_distributive"
   ],
   "note": "whole parse trees; the exceptions are theorems with witnesses"
  },
  {
   "property": "C54",
   "status": "proved",
   "theorems": [
    "Patsy.Props.model_on_data",
    "Patsy.Props.same_column_space",
    "Patsy.Props.equivalent_formulas",
    "Patsy.Props.fitted_unique",
    "Patsy.Props.same_fit",
    "Patsy.Props.law_same_fit"
   ],
   "note": "whole pipeline highLevelDesign; hypotheses: World (C47), codes of pandas categoricals in range (CodesFit), stateful transforms memorise a factor alike whatever the other factors (MemorisedAlike), contrasts are bases and hashes separate (WellCoded). Least squares over any ordered field."
  },
  {
   "property": "C55",
   "status": "proved",
   "theorems": [
    "Patsy.Props.memorized_states",
    "Patsy.Props.memorized_alike",
    "Patsy.Props.training_values",
    "Patsy.Props.chunked_values",
    "Patsy.Props.center_in_formula",
    "Patsy.Props.standardize_in_formula",
    "Patsy.Props.center_chunkFree",
    "Patsy.Props.standardize_chunkFree",
    "Patsy.Props.cr_chunkFree",
    "Patsy.Props.bs_chunkFree",
    "Patsy.Props.memorisedAlike",
    "Patsy.Props.law_same_fit_transforms",
    "Patsy.Props.te_chunkFree"
   ],
   "note": "Python is strict and compositional (Model/Python.lean): conditional or delayed evaluation (if/else, and/or, lambda, comprehensions) and mutation are not covered; the data have no variables with patsy's reserved names."
  },
  {
   "property": "C56",
   "status": "proved",
   "theorems": [
    "Patsy.Props.te_space",
    "Patsy.Props.te_center_space",
    "Patsy.Props.te_splines",
    "Patsy.Props.te_center_splines",
    "Patsy.Props.te_center_loses_columns"
   ],
   "note": "te_center_loses_columns shows that the proviso is needed; splines have at least three (natural) or four (cyclic) knots, as in C43"
  },
  {
   "property": "C57",
   "status": "proved",
   "theorems": [
    "Patsy.Props.syntax_error_position",
    "Patsy.Props.located_agrees",
    "Patsy.Props.message_shows"
   ],
   "note": "From the raw tokens of Python's tokenizer to the error with its origin. The model of the generators is lazy, since it matters which error comes first; located_agrees shows that it is the model of C05, C06 and C13 up to the origins of errors."
  },
  {
   "property": "C58",
   "status": "proved",
   "theorems": [
    "Patsy.Props.builders_outcome",
    "Patsy.Props.build_outcome",
    "Patsy.Props.build_succeeds_iff",
    "Patsy.Props.formula_outcome",
    "Patsy.Props.builtin_real",
    "Patsy.Props.memorize_errors"
   ],
   "note": "For formulas and term lists; explicit matrices are the subject of C36. Hypotheses: contrasts give rectangular matrices with a suffix per column (builtin_real shows it for the codings patsy brings), the hash separates the codings of the terms, equal terms are given once (guaranteed by evaluating a formula). memorize_errors: memorisation fails with a PatsyError or with an error of memorize_finish."
  },
  {
   "property": "C59",
   "status": "proved",
   "theorems": [
    "Patsy.Props.text_to_matrices",
    "Patsy.Props.text_to_matrix",
    "Patsy.Props.text_outcome"
   ],
   "note": "End to end, for the composition Model/Program.lean of the models of the other properties.  Assumed (FineText): Python reads the printed form of an embedded expression as the same tokens, its brackets are nested, and no reserved name is used; (Sane, Real): sets are iterated over once, hash of frozensets is injective, pandas objects and arrays are well formed.  The column spaces need full-rank codings (GoodCodings, proved of the built-in contrasts in C04)."
  },
  {
   "property": "C60",
   "status": "proved",
   "theorems": [
    "Patsy.Props.builds_extend",
    "Patsy.Props.predictions_extend",
    "Patsy.Props.prediction_unique",
    "Patsy.Props.same_predictions",
    "Patsy.Props.same_regression",
    "Patsy.Props.text_predicts",
    "Patsy.Props.text_predicts_dmatrix"
   ],
   "note": "Over any field (least squares: any ordered field); floats are not modelled. The text-level theorems take the assumptions of C59 (Sane, FineText). Explicit matrices (C54 note) are outside."
  },
  {
   "property": "C61",
   "status": "proved",
   "theorems": [
    "Patsy.Props.evaluation_error_position",
    "Patsy.Props.one_culprit",
    "Patsy.Props.formula_error_position",
    "Patsy.Props.located_evaluation",
    "Patsy.Props.message_shows",
    "Patsy.Props.formula_error_message"
   ],
   "note": "For every tree over the operators of the formula language, and from the raw tokens of Python's tokenizer. Hypothesis: EvalFactor(code) succeeds for the embedded expressions (C14, C59); an error of that constructor has no position in the model. located_evaluation shows that the model is that of C08, C09 and C53 up to positions."
  },
  {
   "property": "C62",
   "status": "proved",
   "theorems": [
    "Patsy.Props.alike_predictions",
    "Patsy.Props.alike_matrices",
    "Patsy.Props.alike_success",
    "Patsy.Props.same_run",
    "Patsy.Props.same_run_single",
    "Patsy.Props.nan_order_matters",
    "Patsy.Props.lookup_make",
    "Patsy.Props.lookup_forced",
    "Patsy.Props.lookup_formula"
   ],
   "note": "Hash functions are assumed to agree about which sets of factors collide (same_run: no collisions). For LookupFactors the corresponding expression must not call stateful transforms and must evaluate on all data of the type D. Which exception is raised may differ between runs. nan_order_matters is the exception named in the statement: the order of levels depends on set order if NaN is not missing."
  },
  {
   "property": "C63",
   "status": "proved",
   "theorems": [
    "Patsy.Props.constraint_error_position",
    "Patsy.Props.constraint_error_found",
    "Patsy.Props.constraint_located_agrees",
    "Patsy.Props.tokenizeAt_error_iff",
    "Patsy.Props.disordered_unique",
    "Patsy.Props.constraint_positions_sample"
   ],
   "note": "Both directions against Spec/ConstraintPosition.lean; constraint_located_agrees ties the located model to the model of C26-C28. Division by a constant that is zero is an error of its own in the model (floating point infinities in the code) and left out of the claim."
  },
  {
   "property": "C64",
   "status": "proved",
   "theorems": [
    "Patsy.Props.column_shown",
    "Patsy.Props.rounded_unique",
    "Patsy.Props.decimal_unique",
    "Patsy.Props.matrix_shown",
    "Patsy.Props.terms_shown",
    "Patsy.Props.empty_first_term",
    "Patsy.Props.matrix_sample",
    "Patsy.Props.column_sample"
   ],
   "note": "Floating point numbers by their exact values; %.pf is modelled as correct rounding. Only patsy's own printer, not IPython's."
  },
  {
   "property": "C65",
   "status": "proved",
   "theorems": [
    "Patsy.Props.row_order",
    "Patsy.Props.text_row_order",
    "Patsy.Props.text_row_order_one",
    "Patsy.Props.center_orderFree",
    "Patsy.Props.standardize_orderFree",
    "Patsy.Props.cr_orderFree",
    "Patsy.Props.bs_orderFree",
    "Patsy.Props.equal_objects_order",
    "Patsy.Props.te_orderFree"
   ],
   "note": "row_order is the statement for any setting, text_row_order and text_row_order_one the one for formulas as text; the orderFree theorems show that patsy's own transforms (exact numbers) meet the condition; equal_objects_order shows that the condition on equal objects is needed."
  },
  {
   "property": "C66",
   "status": "proved",
   "theorems": [
    "Patsy.Props.chunks_together",
    "Patsy.Props.chunks_together_one",
    "Patsy.Props.text_chunks",
    "Patsy.Props.text_chunks_one",
    "Patsy.Props.chunks_of_zeros",
    "Patsy.Props.te_chunkFree"
   ],
   "note": "Exact arithmetic. The transforms of patsy that do not mind chunks are those of C55 and C22. Data frames without labels: the numbers that the chunks give to their rows begin anew in every chunk, so that nothing is claimed about the labels then. Success on all chunks is assumed; that the whole data then succeed is proved."
  },
  {
   "property": "C67",
   "status": "proved",
   "theorems": [
    "Patsy.Props.own_terms",
    "Patsy.Props.design_terms",
    "Patsy.Props.own_terms_text"
   ],
   "note": "Designs are compared by their columns, slices and everything build_design_matrices returns."
  },
  {
   "property": "C68",
   "status": "proved",
   "theorems": [
    "Patsy.Props.describe_text",
    "Patsy.Props.description_means",
    "Patsy.Props.description_reproduces",
    "Patsy.Props.describe_forgets_zero",
    "Patsy.Props.describe_intercept_variable",
    "Patsy.Props.description_reproduces_text"
   ],
   "note": "The text is linked to the tokens that it spells; that Python's tokenizer finds these tokens is not modelled."
  },
  {
   "property": "C69",
   "status": "proved",
   "theorems": [
    "Patsy.Props.blanks_irrelevant",
    "Patsy.Props.line_ends_irrelevant",
    "Patsy.Props.blanks_irrelevant_matrices"
   ],
   "note": "Inputs are the tokens that Python's tokenizer yields; that it ignores blanks is not modelled."
  },
  {
   "property": "C70",
   "status": "proved",
   "theorems": [
    "Patsy.Props.ast_names_exact",
    "Patsy.Props.ast_names_refuses_iff",
    "Patsy.Props.factor_value",
    "Patsy.Props.factor_refused_iff"
   ],
   "note": "Python's operators and functions are arbitrary; calls other than Q do not read the caller's frame; compiler flags are not modelled. Q is C40."
  },
  {
   "property": "C71",
   "status": "partial",
   "theorems": [
    "Patsy.Props.sorted_order",
    "Patsy.Props.sorted_deterministic",
    "Patsy.Props.order_deterministic_iff",
    "Patsy.Props.sorted_tuples_arbitrary",
    "Patsy.Props.sortLt_scalar"
   ],
   "note": "True iff different levels of the same class can be compared (order_deterministic_iff), which includes all numbers, strings and comparable tuples. False otherwise: for the levels (1, 'a'), (1, 2), (1, 3) memory addresses decide and the comparison can be circular (sorted_tuples_arbitrary). NaN, complex numbers and classes with their own comparisons are not modelled."
  },
  {
   "property": "C72",
   "status": "proved",
   "theorems": [
    "Patsy.Props.recoded_same_fit",
    "Patsy.Props.recoded_column_space",
    "Patsy.Props.computed_column_space",
    "Patsy.Props.computed_fit_le",
    "Patsy.Props.expressed_le",
    "Patsy.Props.centring_without_intercept"
   ],
   "note": "Numbers are elements of an ordered field. Hypotheses: the contrasts are bases, and the factor values of the rows that are kept are related row by row as the statement says (Spec/Recode.lean); that center and standardize are affine maps is C23 and C55."
  },
  {
   "property": "C73",
   "status": "proved",
   "theorems": [
    "Patsy.Props.factor_lawful",
    "Patsy.Props.term_lawful",
    "Patsy.Props.term_eq_iff",
    "Patsy.Props.makeTerm_spec",
    "Patsy.Props.evalFactor_eq_iff",
    "Patsy.Props.origin_lawful",
    "Patsy.Props.env_lawful",
    "Patsy.Props.expanded_lawful",
    "Patsy.Props.sum_lawful",
    "Patsy.Props.set_spec",
    "Patsy.Props.get_put",
    "Patsy.Props.subterm_not_lawful",
    "Patsy.Props.subterm_mem"
   ],
   "note": "The private class _Subterm breaks the contract (subterm_not_lawful); what this means for coding is C04. Levels and contrasts of LookupFactors are objects that keep the contract and can be hashed."
  },
  {
   "property": "C74",
   "status": "proved",
   "theorems": [
    "Patsy.Props.computed_same_predictions",
    "Patsy.Props.recoded_same_regression",
    "Patsy.Props.own_mean_predictions"
   ],
   "note": "model of C60 with two settings, conditions of C72 on the old and new rows together; numbers in any field, regression in any ordered field"
  },
  {
   "property": "C75",
   "status": "proved",
   "theorems": [
    "Patsy.Props.ordered_dict",
    "Patsy.Props.ordered_eq",
    "Patsy.Props.ordered_nodup"
   ],
   "note": "the linked list is modelled with addresses; keys have a decidable equality (C73); iteration during changes, threads and __repr__ are not modelled"
  },
  {
   "property": "C76",
   "status": "partial",
   "theorems": [
    "Patsy.Props.clear_keeps_keys",
    "Patsy.Props.clear_iff",
    "Patsy.Props.clear_twice"
   ],
   "note": "false for the code on Python 3: itervalues does not exist, the AttributeError is swallowed and the linked list keeps all keys; proved for all dictionaries, and that clear works exactly if the dictionary was empty"
  },
  {
   "property": "C77",
   "status": "proved",
   "theorems": [
    "Patsy.Props.nested_designs",
    "Patsy.Props.added_main_effect",
    "Patsy.Props.nested_calls",
    "Patsy.Props.nested_sides",
    "Patsy.Props.text_nested",
    "Patsy.Props.text_nested_one"
   ],
   "note": "for all lists of terms and all additions with the condition; added_main_effect: witness that the condition is needed. nested_calls: the two designs and matrices made in separate calls. nested_sides, text_nested: two formulas with the same left-hand side, in separate calls."
  },
  {
   "property": "C78",
   "status": "proved",
   "theorems": [
    "Patsy.Props.additional_flexibility",
    "Patsy.Props.leading_columns_span",
    "Patsy.Props.gained_dimension",
    "Patsy.Props.built_flexibility"
   ],
   "note": "numbers from a field; built_flexibility is the statement for the matrices of build_design_matrices"
  },
  {
   "property": "C79",
   "status": "partial",
   "theorems": [
    "Patsy.Props.slice_of_integer_partial",
    "Patsy.Props.slice_of_minus_one",
    "Patsy.Props.slice_of_slice",
    "Patsy.Props.slice_of_key"
   ],
   "note": "complete description: holds for all terms, names, slices and all integers except -1; slice(-1) is slice(-1, 0), which selects nothing (slice_of_minus_one), so the full claim is false of the code"
  },
  {
   "property": "C80",
   "status": "proved",
   "theorems": [
    "Patsy.Props.complete_cases",
    "Patsy.Props.lost_level",
    "Patsy.Props.center_sees_dropped_rows",
    "Patsy.Props.text_complete_cases",
    "Patsy.Props.text_complete_cases_one"
   ],
   "note": "Factors are evaluated row by row (Thinned); witnesses show that the conditions on levels and states are needed. text_complete_cases: the same for dmatrices and dmatrix with the text of a formula; the hypotheses then speak of the values of the code of the factors only."
  },
  {
   "property": "C81",
   "status": "proved",
   "theorems": [
    "Patsy.Props.constraint_ways",
    "Patsy.Props.columnsEqual_meaning",
    "Patsy.Props.name_alone_iff",
    "Patsy.Props.design_constraint",
    "Patsy.Props.names_not_mentionable"
   ],
   "note": "Exact arithmetic; numerals with an optional minus sign; names_not_mentionable shows that the condition on the names is needed"
  },
  {
   "property": "C82",
   "status": "proved",
   "theorems": [
    "Patsy.Props.pushback_sequence",
    "Patsy.Props.tokenizer_refines",
    "Patsy.Props.annotated_tokens_exact"
   ],
   "note": "The underlying iterator keeps raising StopIteration when it is exhausted"
  },
  {
   "property": "C83",
   "status": "proved",
   "theorems": [
    "Patsy.Props.fit_of_formula",
    "Patsy.Props.cell_totals",
    "Patsy.Props.cell_means",
    "Patsy.Props.one_factor_coefficients",
    "Patsy.Props.no_intercept_coefficients",
    "Patsy.Props.treatment_coefficients",
    "Patsy.Props.dummy_coefficients",
    "Patsy.Props.sum_coefficients",
    "Patsy.Props.text_fit",
    "Patsy.Props.helmert_coefficients",
    "Patsy.Props.diff_coefficients",
    "Patsy.Props.line_coefficients",
    "Patsy.Props.crossed_coefficients",
    "Patsy.Props.crossed_treatment",
    "Patsy.Props.text_line",
    "Patsy.Props.text_treatment",
    "Patsy.Props.text_crossed",
    "Patsy.Props.parallel_coefficients",
    "Patsy.Props.parallel_treatment",
    "Patsy.Props.text_parallel"
   ],
   "note": "Arithmetic is exact, over any ordered field; the contrasts have to be bases (WellCoded), as C26/C27 prove of those that come with patsy. The rows are those that are kept (C15). The coefficients of a regression line are line_coefficients. Two crossed factors are crossed_coefficients, crossed_treatment. For formulas given as text: text_fit, text_line, text_treatment, text_crossed."
  },
  {
   "property": "C84",
   "status": "proved",
   "theorems": [
    "Patsy.Props.design_alone",
    "Patsy.Props.matrix_alone",
    "Patsy.Props.right_side_alone",
    "Patsy.Props.text_right_side"
   ],
   "note": "Exact arithmetic. The independence of memorised factors is a hypothesis at the level of settings and proved for factors that are EvalFactors at the level of text."
  },
  {
   "property": "C85",
   "status": "proved",
   "theorems": [
    "Patsy.Props.text_hypothesis",
    "Patsy.Props.vanishing_ways",
    "Patsy.Props.vanishing_meaning",
    "Patsy.Props.constrained_fit",
    "Patsy.Props.text_hypothesis_one",
    "Patsy.Props.design_hypothesis"
   ],
   "note": "Exact arithmetic (ordered field). The text form needs names that can be mentioned in constraints (Mentionable, C81) and that the numeral 0 is read as 0; the dictionary needs neither."
  },
  {
   "property": "C86",
   "status": "proved",
   "theorems": [
    "Patsy.Props.subsets_in_order",
    "Patsy.Props.pieces_in_order",
    "Patsy.Props.all_pieces_in_order"
   ],
   "note": "For every term without repeated factors. The order of columns inside a piece is C17."
  }
 ]
}