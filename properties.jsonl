{"id": "C01", "title": "Categorical coding covers the model exactly once", "statement": "For every list of terms handed to the coding step, in the order they are coded, the full-rank/reduced-rank codings chosen for the terms, each expanded into the elementary effects it spans (a reduced-coded factor must be present, a full-coded factor may be present or absent), contain every elementary effect that some term of the model contains, exactly once, and nothing else: no effect is lost and no effect is produced twice, neither inside one term nor across terms.", "quantifier": "all finite lists of terms, each term any finite list of distinct categorical factors, any factor type", "why_tests_cant": "the number of term lists is infinite and the greedy merge behaves differently for each overlap pattern; tests check a handful of formulas with at most three factors", "anchors": ["patsy/redundancy.py: pick_contrasts_for_term, _simplify_subterms, _simplify_one_subterm, _subsets_sorted, _Subterm", "patsy/build.py: _make_subterm_infos"]}
{"id": "C02", "title": "The coding step never crashes and always terminates", "statement": "For every term and every history of previously coded terms, choosing the codings terminates and never trips the internal assertions about merging two pieces; every coding it returns mentions each factor at most once, and only factors of the term.", "quantifier": "all terms, all histories of previously coded terms", "why_tests_cant": "the merging loop runs an unbounded number of rounds whose intermediate states no test enumerates", "anchors": ["patsy/redundancy.py: _Subterm.absorb, _Subterm.can_absorb, _simplify_one_subterm, _simplify_subterms, pick_contrasts_for_term"]}
{"id": "C03", "title": "Coded columns are linearly independent and span the model space", "statement": "On data that contain every combination of levels, and for contrast codings whose reduced form together with the constant is a basis and whose full form is a basis, the columns built for a list of purely categorical terms are linearly independent, and their span is exactly the sum of the spaces of the terms (all functions of the levels of the term's factors).", "quantifier": "all lists of categorical terms, all numbers of levels, all admissible contrast matrices, all data with every level combination", "why_tests_cant": "rank is a statement about every model and every number of levels; tests compute numeric ranks of a few demo matrices", "anchors": ["patsy/redundancy.py: pick_contrasts_for_term", "patsy/build.py: _make_subterm_infos, _build_subterm", "patsy/contrasts.py"]}
{"id": "C04", "title": "Coding is correct only up to hash collisions", "statement": "Whether an elementary piece counts as already used is decided by comparing hashes only (the equality test of the pieces compares an object with itself). If the hash separates the pieces that occur then the outcome is that of C01; if two different pieces collide the model can lose columns.", "quantifier": "all hash functions on factors", "why_tests_cant": "Python's string hash is randomised per process; a collision cannot be provoked deterministically in a test", "anchors": ["patsy/redundancy.py: _Subterm.__eq__, _Subterm.__hash__, pick_contrasts_for_term"]}
{"id": "C05", "title": "Formula parsing agrees with the operator grammar", "statement": "For every sequence of tokens, the parser succeeds if and only if the sequence is generated by the precedence grammar (binary operators left-associative, prefix operators, parentheses), and then returns the unique tree the grammar assigns: the documented precedence table and left associativity hold for all expressions.", "quantifier": "all finite token sequences, all operator tables (symbol, arity, precedence)", "why_tests_cant": "the set of expressions is infinite; tests list a few dozen", "anchors": ["patsy/infix_parser.py: infix_parse, _read_noun_context, _read_op_context, _run_op", "patsy/parse_formula.py: parse_formula"]}
{"id": "C06", "title": "Parser failures are always reported as PatsyError, never as a crash", "statement": "For every non-empty token sequence the parser either returns a tree or raises PatsyError; it never raises IndexError or AssertionError. For the empty sequence it does raise IndexError, which is reachable with an empty linear-constraint string.", "quantifier": "all finite token sequences", "why_tests_cant": "malformed input space is unbounded", "anchors": ["patsy/infix_parser.py: infix_parse", "patsy/constraint.py: parse_constraint, linear_constraint", "patsy/parse_formula.py: parse_formula"]}
{"id": "C07", "title": "Source positions of parse nodes are exact", "statement": "Every node of a parse tree carries the span from the first to the last character of the tokens it was built from, including enclosing parentheses; spans of children lie inside the span of the parent.", "quantifier": "all token sequences whose tokens carry increasing positions", "why_tests_cant": "holds for every expression shape", "anchors": ["patsy/origin.py: Origin.combine", "patsy/infix_parser.py: _run_op, _read_op_context"]}
{"id": "C08", "title": "Evaluated formulas are normalised", "statement": "Whatever formula expression is evaluated, each side of the resulting model lists every term at most once (terms compared as sets of factors), the intercept occurs at most once and is always the first term, and no other empty term occurs.", "quantifier": "all formula syntax trees", "why_tests_cant": "infinitely many expressions; invariant of a recursive evaluator", "anchors": ["patsy/desc.py: ModelDesc, IntermediateExpr, Evaluator, _eval_*"]}
{"id": "C09", "title": "Formula operators satisfy their documented set algebra", "statement": "+ is set union of terms, - is set difference, a:b is the set of pairwise unions, a*b has exactly the terms of a + b + a:b in the same order, a/b has exactly the terms of a plus the interaction of all factors of a with each term of b, and intercept terms cannot take part in interactions.", "quantifier": "all operand expressions", "why_tests_cant": "algebraic laws over all operand expressions", "anchors": ["patsy/desc.py: _eval_binary_plus, _eval_binary_minus, _eval_binary_prod, _eval_binary_div, _eval_binary_interact, _interaction"]}
{"id": "C10", "title": "The power operator's cut-off is unobservable", "statement": "For every expression e and every n >= 1, e**n yields exactly the same term list (same terms, same order, same factor order inside the terms) as multiplying e with itself n times without the cut-off that limits the exponent to the number of terms.", "quantifier": "all term lists, all exponents", "why_tests_cant": "exponent and number of terms are unbounded", "anchors": ["patsy/desc.py: _eval_binary_power"]}
{"id": "C11", "title": "The implicit intercept is governed by the last thing said about it", "statement": "The right-hand side of a formula that is a flat sum of terms, 1s, 0s, -1s has an intercept iff no anti-intercept occurs, or the last of the intercept-mentioning summands adds it; otherwise exactly one intercept term, first.", "quantifier": "all flat sums of any length", "why_tests_cant": "histories of unbounded length", "anchors": ["patsy/desc.py: _maybe_add_intercept, _eval_any_tilde, _eval_binary_plus, _eval_binary_minus, _eval_unary_minus"]}
{"id": "C12", "title": "describe() round-trips", "statement": "For every model obtained by evaluating a formula, parsing and evaluating the tokens printed by ModelDesc.describe() yields an equal model.", "quantifier": "all models obtainable from formulas", "why_tests_cant": "print/parse round trip over an infinite set of models", "anchors": ["patsy/desc.py: ModelDesc.describe, ModelDesc.from_formula, Term.name", "patsy/parse_formula.py: parse_formula"]}
{"id": "C13", "title": "Formula tokenisation loses nothing", "statement": "Splitting a formula into tokens keeps every Python token exactly once and in order; embedded Python factors extend to the first operator outside all brackets; each embedded factor is balanced in brackets; unbalanced closing brackets are reported as PatsyError.", "quantifier": "all Python token streams", "why_tests_cant": "all token streams", "anchors": ["patsy/parse_formula.py: _tokenize_formula, _read_python_expr", "patsy/tokens.py: python_tokenize", "patsy/util.py: PushbackAdapter"]}
{"id": "C14", "title": "Code normalisation only changes white space", "statement": "Printing a Python token stream with normalised spacing yields the same tokens in the same order with at most one blank between neighbours; the result depends only on the token stream, so two spellings of a factor that differ only in spacing are the same factor.", "quantifier": "all Python token streams", "why_tests_cant": "all token streams", "anchors": ["patsy/tokens.py: pretty_untokenize, normalize_token_spacing", "patsy/eval.py: EvalFactor"]}
{"id": "C15", "title": "Missing-value handling drops exactly the incomplete rows", "statement": "With NA_action='drop' a row is kept iff no factor used by any requested matrix is missing in it; all matrices and the index keep the same rows in the same order, so left- and right-hand sides stay aligned; dropping again changes nothing. With 'raise', an error is raised iff some value is missing.", "quantifier": "all data sets, all numbers of factors and rows, all missingness patterns", "why_tests_cant": "all missingness patterns over unboundedly many rows and factors", "anchors": ["patsy/missing.py: NAAction", "patsy/build.py: build_design_matrices"]}
{"id": "C16", "title": "Rows are built independently; chunked building equals one-shot building", "statement": "For fixed design information, row i of the matrix depends only on row i of the data; building on data split into chunks and stacking the results gives the same matrix as building on all data at once, with missing rows dropped or not.", "quantifier": "all data sets and all ways of splitting them into chunks", "why_tests_cant": "all splits of all data sets", "anchors": ["patsy/build.py: build_design_matrices, _build_design_matrix, _build_subterm", "patsy/missing.py: NAAction"]}
{"id": "C17", "title": "Interaction columns are the products their names say", "statement": "For an interaction, there is one column for every combination of the factors' columns, with the leftmost factor varying fastest; the value is the product of the factors' values and the column's name is the join of the corresponding factor-column names; the number of names always equals the number of columns.", "quantifier": "all interactions with any number of factors and columns per factor", "why_tests_cant": "unbounded number of factors and columns", "anchors": ["patsy/build.py: _column_combinations, _subterm_column_combinations, _subterm_column_names_iter, _build_subterm"]}
{"id": "C18", "title": "Term order of the design is the documented one", "statement": "The terms of the design are a rearrangement of the requested terms: the group without numerical factors first, other groups by first appearance of their numerical factor combination, inside a group by number of categorical factors, otherwise in the order written.", "quantifier": "all term lists, all assignments of numerical/categorical types", "why_tests_cant": "all term lists", "anchors": ["patsy/build.py: _make_subterm_infos"]}
{"id": "C19", "title": "Column bookkeeping of a design is exact", "statement": "The column slices of the terms (and of the pieces of terms) are contiguous, in order, disjoint and together cover all columns; column names are distinct; a slice looked up by term or name selects exactly that term's columns.", "quantifier": "all designs", "why_tests_cant": "all designs", "anchors": ["patsy/design_info.py: DesignInfo.__init__, DesignInfo.slice"]}
{"id": "C20", "title": "Subset designs reproduce the same columns", "statement": "Building the design restricted to some of its terms gives, on every data set, exactly the columns of the full matrix that belong to those terms, in the requested order (built in the same call; built by itself, the subset may keep rows in which only factors of the other terms are missing).", "quantifier": "all designs, all selections of terms, all data", "why_tests_cant": "all designs and selections", "anchors": ["patsy/design_info.py: DesignInfo.subset", "patsy/build.py: _build_design_matrix"]}
{"id": "C21", "title": "Stateful memorisation protocol", "statement": "During set-up every factor sees, in each of its passes, every chunk of the data once and in order, and is told once that the pass is over, before the next pass starts; a factor needing n passes gets exactly n; the data are iterated exactly as often as the most demanding factor requires. The order in which factors are visited does not matter.", "quantifier": "all sets of factors with any pass counts, all data iterators, all visiting orders", "why_tests_cant": "all schedules of factors and chunks (factors live in an unordered set)", "anchors": ["patsy/build.py: _factors_memorize"]}
{"id": "C22", "title": "Nested stateful transforms are memorised inside-out", "statement": "For a factor with any nesting of stateful transforms, every transform is memorised in a pass after all transforms occurring in its arguments are finished, exactly once, the number of passes is the nesting depth, and the scheduling loop never gets stuck.", "quantifier": "all nestings of stateful calls", "why_tests_cant": "all nestings", "anchors": ["patsy/eval.py: EvalFactor.memorize_passes_needed, EvalFactor.memorize_chunk, EvalFactor.memorize_finish"]}
{"id": "C23", "title": "Incremental centring and standardising equal the batch definitions", "statement": "center() subtracts the mean of all memorised data and standardize() additionally divides by the standard deviation (with the requested ddof) of all memorised data, whatever the split into chunks and whatever the order of rows; the transform is then a fixed affine map applied row by row to any data.", "quantifier": "all data, all splits, all row orders (exact arithmetic)", "why_tests_cant": "all splits of all data sets", "anchors": ["patsy/state.py: Center, Standardize"]}
{"id": "C24", "title": "Level detection does not depend on chunking", "statement": "The levels found for a categorical factor are the distinct non-missing values of all the data (or the declared levels), sorted, for every way of splitting the data into chunks. (Violated for data containing the integers 0 and 1 in an early chunk.)", "quantifier": "all data of Python scalars, all splits", "why_tests_cant": "all splits of all data sets", "anchors": ["patsy/categorical.py: CategoricalSniffer", "patsy/build.py: _examine_factor_types"]}
{"id": "C25", "title": "Categorical coding of values is faithful", "statement": "Converting categorical data to integer codes maps each value to the position of the level equal to it, each missing value to -1 and rejects every other value; data used to detect the levels never get rejected.", "quantifier": "all data of Python scalars, all level lists", "why_tests_cant": "all data sets and level lists", "anchors": ["patsy/categorical.py: categorical_to_int, CategoricalSniffer", "patsy/missing.py: NAAction.is_categorical_NA"]}
{"id": "C26", "title": "Contrast matrices are admissible", "statement": "For every number of levels n >= 1, the reduced Treatment, Sum, Helmert and Diff matrices have n rows and n-1 columns, and together with the constant column form a basis; the full-rank versions have n columns and are a basis; the number of column suffixes equals the number of columns.", "quantifier": "all n, all choices of reference/omitted level", "why_tests_cant": "all numbers of levels", "anchors": ["patsy/contrasts.py: Treatment, Sum, Helmert, Diff, Poly"]}
{"id": "C27", "title": "Contrast coefficients mean what the documentation says", "statement": "If cell means are expressed as intercept plus contrast columns times coefficients, then Treatment coefficients are differences from the reference level, Sum coefficients are deviations from the grand mean, Diff coefficients are successive differences, Helmert coefficients compare each level with the mean of the previous ones; Poly columns are orthonormal and orthogonal to the constant for every QR factorisation.", "quantifier": "all n, all cell means, all references", "why_tests_cant": "all numbers of levels and all vectors of means", "anchors": ["patsy/contrasts.py: Treatment, Sum, Helmert, Diff, Poly"]}
{"id": "C28", "title": "Linear constraints mean what they say", "statement": "A vector satisfies the matrix form of a parsed constraint string iff it satisfies all the written equations read as ordinary arithmetic (chains a = b = c mean both equations); constraints given as matrices, lists or dictionaries mean the corresponding equations.", "quantifier": "all constraint syntax trees, all coefficient vectors", "why_tests_cant": "all strings and all vectors", "anchors": ["patsy/constraint.py: linear_constraint, _EvalConstraint, LinearConstraint.combine"]}
{"id": "C29", "title": "Variable lookup order", "statement": "A name in a factor resolves to the data if present there, otherwise to the innermost captured scope that defines it; restricting an environment to the names used does not change any such lookup; assignments never modify the user's data or scopes.", "quantifier": "all stacks of scopes, all names, all sequences of assignments", "why_tests_cant": "all scope stacks and histories", "anchors": ["patsy/eval.py: VarLookupDict, EvalEnvironment"]}
{"id": "C30", "title": "Row-wise tensor products are Kronecker rows", "statement": "The in-place row-wise tensor product of any list of matrices with at least one column each equals the textbook product: one column per combination of columns, last matrix fastest, entry the product of the entries; in spite of source and destination overlapping.", "quantifier": "all lists of matrices with equal number of rows", "why_tests_cant": "unbounded number and sizes of matrices", "anchors": ["patsy/mgcv_cubic_splines.py: _row_tensor_product"]}
{"id": "C31", "title": "Cyclic and bounded spline argument mapping", "statement": "Cyclic mapping sends every value into the closed interval between the bounds and changes it by a multiple of the period, keeping values that are already inside, and fails exactly if the bounds are not in order; the interval search returns the interval whose left knot is before and whose right knot is not before the value, clamped to the first and last interval.", "quantifier": "all values, all bounds, all strictly increasing knot sequences", "why_tests_cant": "all real inputs", "anchors": ["patsy/mgcv_cubic_splines.py: _map_cyclic, _find_knots_lower_bounds"]}
{"id": "C32", "title": "Cubic regression spline bases interpolate and sum to one", "statement": "Evaluated at its k-th knot the natural (and cyclic) cubic spline basis is the k-th unit vector, and at every point the basis functions sum to one. (Violated by cyclic splines with fewer than three free knots.)", "quantifier": "all knot sequences, all evaluation points (exact arithmetic)", "why_tests_cant": "all knots and points", "anchors": ["patsy/mgcv_cubic_splines.py: _get_natural_f, _get_cyclic_f, _compute_base_functions, _get_free_crs_dmatrix"]}
{"id": "C33", "title": "Requested spline degrees of freedom are delivered", "statement": "Whenever a spline with df columns is accepted, the number of columns it produces is df, for bs (with or without intercept, any degree) and for cr/cc (with or without centering constraint).", "quantifier": "all df, degree, constraint combinations", "why_tests_cant": "all parameter combinations", "anchors": ["patsy/splines.py: BS", "patsy/mgcv_cubic_splines.py: CubicRegressionSpline, _get_all_sorted_knots"]}
{"id": "C34", "title": "Balanced designs and demo data", "statement": "balanced() contains every combination of levels exactly `repeat` times; demo data have at least the requested number of rows and contain every combination equally often.", "quantifier": "all factor counts, level counts, repeats", "why_tests_cant": "unbounded parameters", "anchors": ["patsy/user_util.py: balanced, demo_data"]}
{"id": "C35", "title": "De-duplication keeps first occurrences", "statement": "Removing duplicates keeps exactly the first occurrence of every element in the original order, is idempotent and commutes with concatenation in the sense used by the formula algebra.", "quantifier": "all lists with decidable equality", "why_tests_cant": "all lists", "anchors": ["patsy/util.py: uniqueify_list", "patsy/desc.py: Term, IntermediateExpr"]}
{"id": "C36", "title": "High-level entry points accept exactly the right models", "statement": "dmatrix rejects every formula-like whose left-hand side has columns, and dmatrices every one whose left-hand side has none (in particular if there is no left-hand side); whatever is accepted gives matrices with the same number of rows and, after NA dropping, the same index.", "quantifier": "all formula-likes", "why_tests_cant": "all models", "anchors": ["patsy/highlevel.py: _do_highlevel_design, dmatrix, dmatrices, _try_incr_builders"]}
{"id": "C37", "title": "The greedy coding is not always the shortest", "statement": "The documentation says the coding of a term tries to use the fewest pieces possible. This does not hold in general: there is a model (1 + a + b + a:b:c) for which the last term is coded with three pieces although two pieces cover exactly the same effects.", "quantifier": "existence of a model; refutes the claim for all models", "why_tests_cant": "optimality over all possible codings is not observable by running the code on examples", "anchors": ["patsy/redundancy.py: _simplify_one_subterm, pick_contrasts_for_term", "doc/formulas.rst: lines 660, 751-754"]}
{"id": "C38", "title": "Each group of terms is coded without loss or redundancy", "statement": "In a finished design, terms are grouped by their numerical factors; inside each group every effect of categorical factors that some term of the group contains is spanned by exactly one piece of one term, and nothing else is; each piece contains all numerical factors of its term, has the contrast matrix of the chosen rank for each categorical factor, keeps the order of factors of the term and has as many columns as combinations. On distinct terms this never fails.", "quantifier": "all lists of terms, all splits into numerical and categorical factors, all contrast codings", "why_tests_cant": "unboundedly many models; interaction of grouping, sorting and redundancy elimination", "anchors": ["patsy/build.py: _make_subterm_infos", "patsy/redundancy.py: pick_contrasts_for_term"]}
{"id": "C39", "title": "Constraint strings follow the standard precedences", "statement": "A constraint string is read with the usual precedence of arithmetic: signs bind tighter than * and /, these tighter than + and -, these tighter than =, then the comma; so the accepted constraint has exactly the solutions of the equations as a reader of ordinary arithmetic understands them.", "quantifier": "all constraint strings, all sets of variable names", "why_tests_cant": "all strings; the library's table gives signs the same precedence as + and -, which only differs in rare combinations", "anchors": ["patsy/constraint.py: _ops, parse_constraint", "patsy/infix_parser.py: infix_parse"]}
{"id": "C40", "title": "Quoting a variable name", "statement": "If x is a variable visible to a formula, then Q('x') in the formula has the value of x (documentation of Q). Violated for variables that are found in the calling environment and not in the data.", "quantifier": "all variables, data and environments", "why_tests_cant": "the tests only quote names of data columns or call Q outside of a formula", "anchors": ["patsy/builtins.py: Q", "patsy/eval.py: EvalFactor.memorize_passes_needed, EvalEnvironment.subset"]}
{"id": "C41", "title": "cr gives exactly the natural cubic splines", "statement": "For every choice of coefficients, the linear combination of the columns of a natural cubic regression spline is, as a function of x, twice continuously differentiable, cubic between adjacent knots, linear outside of the knots, and takes the coefficients as values at the knots; and every such function is obtained, with its values at the knots as coefficients.", "quantifier": "all increasing sequences of at least three knots, all coefficients, all real arguments (exact arithmetic)", "why_tests_cant": "smoothness and span are statements about uncountably many functions; tests compare a few matrices with mgcv output", "anchors": ["patsy/mgcv_cubic_splines.py: _get_natural_f, _compute_base_functions, _get_free_crs_dmatrix"]}
{"id": "C42", "title": "Cyclic splines do not depend on the type of the numbers", "statement": "A cyclic cubic regression spline gives the same row for an integer and for the equal floating-point number. Violated for integers outside of the knots when the bounds are not integers: the mapped value is truncated to an integer.", "quantifier": "all integers, all knots", "why_tests_cant": "the tests use floating-point data or integer bounds only", "anchors": ["patsy/mgcv_cubic_splines.py: _map_cyclic, _get_free_crs_dmatrix, CubicRegressionSpline.transform"]}
{"id": "C43", "title": "cc gives exactly the cyclic cubic splines", "statement": "For every choice of coefficients, the linear combination of the columns of a cyclic cubic regression spline is, as a function of x, periodic, twice continuously differentiable, cubic between adjacent knots, and takes the coefficients as values at the knots; and every such function is obtained, with its values at the knots as coefficients. Violated with one or two free knots.", "quantifier": "all increasing sequences of knots, all coefficients, all real arguments (exact arithmetic)", "why_tests_cant": "smoothness, periodicity and span are statements about uncountably many functions", "anchors": ["patsy/mgcv_cubic_splines.py: _map_cyclic, _get_cyclic_f, _compute_base_functions, _get_free_crs_dmatrix"]}
{"id": "C44", "title": "Spline constraints are absorbed exactly", "statement": "The columns of a spline with constraints span exactly the combinations of the unconstrained columns whose coefficients satisfy the constraints. In particular, with constraints='center', cr spans exactly the natural cubic splines whose mean over the training data is zero (cc: the cyclic ones, from three free knots), and all columns of cr, cc and te have mean zero over the training data. Violated when a constraint follows from the others.", "quantifier": "all constraint arrays, all QR factorisations as promised by SciPy, all knots, all data (exact arithmetic)", "why_tests_cant": "span is a statement about uncountably many functions; tests compare a few matrices with mgcv output", "anchors": ["patsy/mgcv_cubic_splines.py: _absorb_constraints, _get_centering_constraint_from_dmatrix, CubicRegressionSpline, TE"]}
{"id": "C45", "title": "Splines do not depend on how the data are cut into chunks", "statement": "The knots and constraints that bs, cr, cc and te remember depend only on the concatenation of the chunks of training data.", "quantifier": "all data, all ways to cut it into chunks, all parameters (exact arithmetic)", "why_tests_cant": "all partitions of all data sets; tests try a few chunk sizes", "anchors": ["patsy/splines.py: BS.memorize_chunk", "patsy/mgcv_cubic_splines.py: CubicRegressionSpline.memorize_chunk, TE.memorize_chunk"]}
{"id": "C46", "title": "Designs made together are consistent", "statement": "The designs that one call of design_matrix_builders makes from several term lists (such as the two sides of a formula) contain exactly the factors of their terms, list their terms in the documented order, and share one FactorInfo object per factor, so that type, levels and state of a factor are the same on both sides.", "quantifier": "all term lists, data and orders of traversal of Python sets", "why_tests_cant": "identity of shared objects across arbitrary sets of formulas is not observable from single matrices", "anchors": ["patsy/build.py: design_matrix_builders"]}
{"id": "C47", "title": "Factor types do not depend on the rest of the formula", "statement": "Whether a factor is numerical (and with how many columns) or categorical (and with which levels) depends on its own values only: not on the other factors of the formula, not on the order in which sets are traversed, and examining a formula fails only if examining one of its factors fails. Two formulas with a common factor treat it in the same way.", "quantifier": "all formulas, chunked data, traversal orders", "why_tests_cant": "all combinations of factors and hash orders", "anchors": ["patsy/build.py: _examine_factor_types, design_matrix_builders"]}
{"id": "C48", "title": "The design_info of a matrix reproduces the matrix", "statement": "For a formula without left-hand side, build_design_matrices([m.design_info], data) returns the matrix (and index) m that dmatrix made from the same data; for dmatrices, building both design_infos together returns both matrices. incr_dbuilder(s) return the design_info that dmatrix/dmatrices attach.", "quantifier": "all formulas, data, NA actions, return types", "why_tests_cant": "all formulas and data; needs that the extra empty left-hand design never changes rows or index", "anchors": ["patsy/highlevel.py: dmatrix, dmatrices, incr_dbuilder, incr_dbuilders", "patsy/build.py: build_design_matrices"]}
{"id": "C49", "title": "The column space of a model depends only on its terms", "statement": "On the same data, two designs whose terms are marginal to each other (same numerical factors, factors contained in those of a term of the other design) have the same column space, whatever the order of the terms, the order of the factors in a term, the contrasts of the categorical factors, and whether terms are listed that others already contain: a:b, a*b and b:a + a + 1 (with intercept) are the same model. If every term of one design is marginal to a term of another, the first model is nested in the second.", "quantifier": "all pairs of lists of terms, all numbers of levels, all admissible contrasts, all data", "why_tests_cant": "tests compare a few demo formulas; the claim is about every pair of equivalent formulas and every data set", "anchors": ["patsy/redundancy.py: pick_contrasts_for_term", "patsy/build.py: _make_subterm_infos, _build_subterm", "doc/formulas.rst: Redundancy and categorical factors"]}
{"id": "C50", "title": "The number of columns of a model is its degrees of freedom", "statement": "The number of columns of a design is the sum, over its effects (the numerical factors of a term together with a subset of its categorical factors, each counted once), of the product of the numbers of columns of the numerical factors and the numbers of levels less one of the categorical factors. So it does not depend on the order of terms or factors, on the contrasts or on the data.", "quantifier": "all lists of terms with any mixture of numerical and categorical factors, all numbers of levels and columns", "why_tests_cant": "a closed formula for every model cannot be settled by counting the columns of examples", "anchors": ["patsy/redundancy.py: pick_contrasts_for_term", "patsy/build.py: _make_subterm_infos, design_matrix_builders"]}
{"id": "C51", "title": "bs spans exactly the splines with its knots", "statement": "With include_intercept=True, the combinations of the columns of bs are exactly the functions on the range that are piecewise polynomials of the given degree, with degree minus m continuous derivatives at an inner knot that is listed m times; by default (include_intercept=False) exactly those of them that are zero at the lower bound. The columns are not negative, add up to one, and are independent unless a knot is listed more than degree + 1 times. All this needs that the inner knots are strictly inside the range, which bs does not check: an inner knot equal to the upper bound (for example a quantile of data with many ties at the maximum) makes all columns zero there, and one equal to the lower bound makes the columns without intercept add up to one.", "quantifier": "all degrees, all lists of knots (given or computed, any multiplicities), all bounds, all points, all functions; every evaluation routine that follows the recursion of de Boor, in particular FITPACK's algorithm, over the reals", "why_tests_cant": "tests compare with tables of R for a few data sets; equality of function spaces for all knots and degrees is the theorem of Curry and Schoenberg", "anchors": ["patsy/splines.py: BS.memorize_finish, BS.transform, _eval_bspline_basis"]}
{"id": "C52", "title": "Different terms with unambiguous names are accepted", "statement": "Once the factors have been evaluated and their types found out, design_matrix_builders succeeds for every list of different terms, if factor names have balanced brackets, contain colons only inside brackets, do not end in ']' and are not 'Intercept', and the levels of categorical factors have different names with balanced brackets, none 'intercept', and the contrasts are those that come with patsy, and no factor is called like another one followed by a suffix of Poly such as '.Linear'. In particular no column name is used twice and no column name is the name of another term. The hypotheses on the names cannot be dropped: a variable called Intercept, x + x[0] with a two-column x, levels 1 and '1', or a level 'intercept' with Helmert coding make it fail.", "quantifier": "all lists of terms (any number and order of factors, interactions of any depth), all numbers of columns and levels", "why_tests_cant": "that no pair of columns of any model collides is a statement about all models; tests only see the names of a few", "anchors": ["patsy/build.py: design_matrix_builders, _make_subterm_infos, _subterm_column_names_iter", "patsy/design_info.py: DesignInfo.__init__", "patsy/contrasts.py: code_with_intercept, code_without_intercept"]}
{"id": "C53", "title": "A formula means what the manual says, however deeply its operators are nested", "statement": "Give every expression a meaning by the set operations of the manual: + is the union of the sets of terms, - their difference, : the pairwise unions of terms, * both operands and their interactions, / the left operand and every right term together with all left factors, ** n the unions of one to n terms, and 0/1/-0/-1 say something about the intercept. Then ModelDesc.from_formula accepts a formula exactly when it has a meaning, and the two sides of the model are exactly the sets of terms of that meaning. Consequently + , : , * and / are associative, : and * commutative, : distributes over +, / rightward over +, a*b = a + b + a:b, a/b = a + a:b, (a + b)/c = a + b + a:b:c, (a**m)**n = a**(mn), a**m : a**n = a**(m+n), (x1 + ... + xn)**(n-1) = x1*...*xn - x1:...:xn, and equal subexpressions can be exchanged anywhere. The exceptions (a literal 0, a removed intercept inside an operand) are stated.", "quantifier": "all parse trees, all subexpressions, all exponents, all factor constructors", "why_tests_cant": "nested operators combine in unboundedly many ways; tests try a few formulas, and equivalence of formulas is a statement about all pairs of subexpressions", "anchors": ["patsy/desc.py: _eval_any_tilde, _eval_binary_plus, _eval_binary_minus, _interaction, _eval_binary_prod, _eval_binary_div, _eval_binary_power, _eval_unary_plus, _eval_unary_minus, ModelDesc.from_formula", "doc/formulas.rst: Operators, Intercept handling"]}
{"id": "C54", "title": "Formulas with the same meaning give the same fits, and the columns are a basis of what the terms say", "statement": "dmatrix/dmatrices on a data set give, on the rows in which no factor of the formula is missing, a matrix whose columns span exactly the space of functions described by the terms (products of the numerical columns times arbitrary functions of the levels of the categorical factors, for every term and everything marginal to it); if every combination of levels has enough rows to tell the numerical products apart, the columns are linearly independent. Hence two formulas with the same sets of terms -- in any order, or after any rewriting law of C53 -- keep the same rows, have the same column space, and every least squares fit has the same fitted values.", "quantifier": "all data sets, all formulas/models, all outcomes, all contrasts that are bases, all missing-value patterns", "why_tests_cant": "a statement about all vectors in a space and all pairs of equivalent formulas; unit tests compare ranks on a few balanced data sets", "anchors": ["patsy/highlevel.py: _do_highlevel_design, dmatrix, dmatrices", "patsy/build.py: build_design_matrices, _build_design_matrix, _build_subterm, _examine_factor_types", "patsy/redundancy.py: pick_contrasts_for_term", "doc/formulas.rst: redundancy and categorical factors"]}
{"id": "C55", "title": "Stateful transforms in formulas compute what the expressions say", "statement": "After the factors of a formula have been memorised on data (in any number of chunks), every call of a stateful transform in the code of a factor -- nested calls and several calls in one expression included -- has exactly the state that its class makes of the arguments of this call on all the data, computed with the final states of the calls inside; memorisation succeeds exactly if such states exist. A factor then evaluates, on any data, as the user's expression with these states, independently of the other factors and of set iteration orders. On the data it was memorised on, it has the value the expression has outside of patsy, where center, standardize, bs, cr ... are ordinary functions; the same for data that came in chunks, whose values put together are the value on the whole data.", "quantifier": "all code of factors (bracketed token trees without the reserved names), all classes of stateful transforms, all data and chunkings, all iteration orders", "why_tests_cant": "nesting depth, number of passes, iteration orders and chunkings are unbounded; the tests look at a handful of expressions with mock transforms", "anchors": ["patsy/eval.py: EvalFactor.memorize_passes_needed, memorize_chunk, memorize_finish, eval", "patsy/build.py: _factors_memorize", "patsy/state.py: stateful_transform, Center, Standardize", "patsy/splines.py: BS", "patsy/mgcv_cubic_splines.py: CubicRegressionSpline", "doc/stateful-transforms.rst"]}
{"id": "C56", "title": "te produces exactly the tensor product of the spaces of its arguments", "statement": "Fitting te(a1, ..., ak) without constraints can produce exactly those functions of k variables that are, in each variable separately (the others fixed), combinations of the columns of the argument for this variable. With constraints='center' it can produce exactly those among them whose mean over the training data is zero, provided that one of them has another mean (otherwise a column is lost). In particular, te of cr and cc terms produces exactly the functions that are natural or cyclic cubic splines in each variable, with the knots of the respective argument.", "quantifier": "all numbers of arguments, all arguments with at least one column (any functions of the data), all training data and new data, every QR decomposition", "why_tests_cant": "the claim is an equality of infinite sets of functions of any number of variables; tests compare a few matrices with mgcv output", "anchors": ["patsy/mgcv_cubic_splines.py: TE, _row_tensor_product, _get_te_dmatrix, _absorb_constraints, CR, CC", "doc/spline-regression.rst: Tensor product smooths"]}
{"id": "C57", "title": "Syntax errors point at the right place", "statement": "When a formula does not parse, patsy raises a PatsyError whose origin is the stretch of text to blame: the first token (operator, parenthesis or whole embedded expression) such that what precedes it is the beginning of some formula but what precedes it together with it is not; or a closing bracket without an opening one; or the token that Python does not allow; or the whole text for a string without an end; or, if the text ends too early, the operator or parenthesis at its end, the innermost open parenthesis, or the embedded expression whose bracket is open. What comes before is always the beginning of a valid formula.", "quantifier": "all streams of tokens Python's tokenizer can produce, all mistakes", "why_tests_cant": "tests mark the expected position in a few dozen wrong formulas; that the marked token is the first that no formula can have there is a statement about all formulas, and the order in which lazily chained generators fail is easy to change by accident", "anchors": ["patsy/parse_formula.py:_read_python_expr", "patsy/parse_formula.py:_tokenize_formula", "patsy/infix_parser.py:infix_parse", "patsy/infix_parser.py:_read_noun_context", "patsy/infix_parser.py:_read_op_context", "patsy/tokens.py:python_tokenize", "patsy/origin.py:Origin.combine"]}
{"id": "C58", "title": "Failures are reported, not internal errors", "statement": "When dmatrix, dmatrices or design_matrix_builders fail for a formula, the exception is a PatsyError; or it is the exception raised by the user's own code (a stateful transform, the evaluation of a factor, a contrast class); or it is one of a known list of other errors, each with its own cause: categorical data with an integer too large for a float (OverflowError), no data at all (AssertionError), a contrast matrix that does not have one row per level (ValueError), ambiguous names of columns or terms (ValueError or AssertionError), a boolean array for a factor whose declared levels lack one of the truth values (KeyError). No KeyError, IndexError, AssertionError or shape mismatch of patsy's own bookkeeping can come through. Once a design has been made, the matrices can be built from new data if and only if every factor evaluates to values that fit it, with equal numbers of rows and equal indices, and nothing is missing or NA_action is not 'raise'.", "quantifier": "all formulas (given as text or ModelDesc), all data and evaluation functions, all contrasts whose matrices are rectangular with a suffix per column, all NA actions and return types", "why_tests_cant": "tests assert particular exceptions for particular inputs; that the dozens of asserts and dictionary lookups in between cannot fail is a statement about all inputs", "anchors": ["patsy/build.py:693-796", "patsy/build.py:60-110", "patsy/build.py:800-1022", "patsy/design_info.py:276-401", "patsy/categorical.py:327-396", "patsy/highlevel.py:150-227"]}
{"id": "C59", "title": "From the text of a formula to the matrices", "statement": "When dmatrices (or dmatrix) returns for a formula given as text, then: the text is grammatical and means, by the rules of the formula language, two sets of terms, whose factors are exactly Python expressions standing in the text; every factor has the value that its code would have in ordinary Python with stateful transforms as ordinary functions of the data, and the type (numerical with its columns, categorical with its levels and contrast) which that value shows; all factors have the same number of rows; and each matrix has one row for every row of the data in which nothing is missing, its columns span exactly the functions that the terms describe, and they are linearly independent if the data are rich enough. When the call fails, the exception is a PatsyError, or the error of memorize_finish of a stateful transform called in the formula, or has one of the special causes of C58.", "quantifier": "all texts (all streams of raw tokens), all data, all Python evaluation functions, stateful transforms and contrasts, all iteration orders of sets, whichever rows are missing", "why_tests_cant": "a claim about the composition of tokenizer, parser, formula algebra, memorisation, type inspection, coding and missing-value handling for all inputs; tests compare a few dozen formulas with stored matrices", "anchors": ["patsy/highlevel.py:dmatrix,dmatrices", "patsy/desc.py:ModelDesc.from_formula", "patsy/parse_formula.py", "patsy/eval.py:EvalFactor", "patsy/build.py:design_matrix_builders,build_design_matrices"]}
{"id": "C60", "title": "Predictions on new data belong to the fitted model", "statement": "The design_info of a matrix that dmatrix or dmatrices returned, or a design made incrementally from chunks, applied to new data by build_design_matrices (with any NA_action and any data): the new matrix has one row for every new row in which no factor of the design is missing, where the types and levels of the factors and the states of the stateful transforms are those of the old data and nothing is learned from the new data; it has as many columns as the old one; and with the same coefficients the two matrices together give exactly the functions that the terms of the formula describe on the old and new rows together. Hence, if the old columns are independent, predictions are determined by the fitted values; and two equivalent formulas (same terms up to order, or terms marginal to each other, in whatever coding) fitted by least squares on the same data give the same predictions on all new data.", "quantifier": "all formulas (texts and models), all old and new data, all chunkings, all NA actions, all coefficients and outcomes, all codings that are bases", "why_tests_cant": "a statement about all coefficient vectors, all pairs of data sets and all pairs of equivalent formulas; tests compare single stored matrices for new data", "anchors": ["patsy/build.py:build_design_matrices,design_matrix_builders", "patsy/highlevel.py:dmatrix,dmatrices", "patsy/design_info.py:DesignInfo,FactorInfo", "patsy/eval.py:EvalFactor.eval", "doc/stateful-transforms.rst", "doc/library-developers.rst (predictions)"]}
{"id": "C61", "title": "Errors in the meaning of a formula point at the right place", "statement": "When a formula is grammatical but means nothing, patsy raises a PatsyError whose origin is the first part that can not stand where it does: a number besides 0 and 1, a minus sign before anything but 0 and 1, a nested formula, an exponent that is not a positive integer, or the last 1, -0 or - 0 that makes an interacting expression ask for an intercept. Operands are judged before their operator and from left to right. Every grammatical formula either has a meaning or exactly one such part, and together with syntax errors nothing that goes wrong between text and model is reported without a position.", "quantifier": "all formulas, however deeply nested", "why_tests_cant": "tests mark the position in about thirty wrong formulas; which of several requests for an intercept is blamed, and that a formula without meaning is always reported at exactly one place, concerns all trees", "anchors": ["patsy/desc.py:Evaluator.eval", "patsy/desc.py:_check_interactable", "patsy/desc.py:_eval_binary_plus", "patsy/desc.py:_eval_binary_minus", "patsy/desc.py:_eval_binary_power", "patsy/desc.py:_eval_unary_minus", "patsy/desc.py:_eval_number", "patsy/desc.py:ModelDesc.from_formula"]}
{"id": "C62", "title": "Results do not depend on hash seeds, set orders, or how factors are represented", "statement": "Two runs of the same program give the same result although Python goes through its sets of factors, of names and of levels in different orders and hashes differently: dmatrix and dmatrices succeed in both runs or in none, with the same matrix, row labels, column names, and columns of the terms. The same holds for predictions, for incremental designs, and for models built from other factor objects with the same values: a model of LookupFactors gives the matrix of the formula with the same variables, and LookupFactor(force_categorical=True, contrast, levels) is categorical with these levels and this contrast whatever its data look like. Exception: when NaN does not count as missing, NaN can be a level, and the order of the levels is that of a set.", "quantifier": "all formulas and models, all data, all hash functions without collisions between the sets of factors of the model, all iteration orders of all sets, all injective renamings of factors", "why_tests_cant": "tests run with a handful of hash seeds and with small sets, whose order happens to be stable; the claim is about all orders at every place where a set is gone through", "anchors": ["patsy/build.py:_examine_factor_types,_factors_memorize,design_matrix_builders", "patsy/redundancy.py:_Subterm,_subterms_for_pick", "patsy/categorical.py:CategoricalSniffer.levels_contrast", "patsy/eval.py:EvalFactor.memorize_passes_needed", "patsy/user_util.py:LookupFactor", "doc/expert-model-specification.rst"]}
{"id": "C63", "title": "Errors in linear constraints are marked at the text to blame", "statement": "If DesignInfo.linear_constraint refuses the text of a constraint with a PatsyError, then the stretch of text it marks is the one to blame: the first character with which no number, column name or operator begins; else the first word that cannot come there in any constraint, or the last open parenthesis or operator if the text ends too early; else the first expression that does not make sense in its place (a product of expressions with variables: all of it; a quotient by one: the divisor; an equation whose variables cancel or an expression without variables in the place of a constraint: all of it; an equation or enumeration in the place of a number: all of it). Conversely, every text with such a fault is refused and marked there. Texts without faults are not refused, except that a blank text is an IndexError without position.", "quantifier": "all texts, all non-empty lists of distinct column names", "why_tests_cant": "the tests contain two dozen marked texts; the claim is about the first fault of every text, whichever of scanner, parser and evaluator finds it", "anchors": ["patsy/constraint.py:_tokenize_constraint,_EvalConstraint,linear_constraint", "patsy/infix_parser.py:infix_parse", "patsy/__init__.py:PatsyError"]}
{"id": "C64", "title": "A printed design matrix shows what is in it", "statement": "repr(matrix) of a design matrix begins with its shape. If a table of the column names and the first 30 rows fits into the line, then this table follows: one line per row with right-aligned columns at least two blanks apart, where every finite number is rounded to 5 decimals (half to even) and all numbers of a column have the same number of decimals, the least that shows all of them, so that no digit of an integer is ever dropped; NaN and infinities appear by their names; and the number of omitted rows is given. Otherwise only the column names are listed. Then all terms are listed with their columns, and a note says so exactly if some numbers were not shown. If the first term has no columns, the comma after it is missing.", "quantifier": "all designs and all matrices, with any finite or infinite numbers and NaN; all precisions for the format of a column", "why_tests_cant": "the tests of the format are four columns; whole matrices are only printed without looking at the text", "anchors": ["patsy/design_info.py:_format_float_column,DesignMatrix._repr_pretty_", "patsy/util.py:_MiniPPrinter"]}
{"id": "C65", "title": "The order of the rows does not matter", "statement": "If the rows of the data are put into another order, then dmatrix and dmatrices succeed again and give the same design (names of columns, types, levels, codings, memorised states) and the same matrices with their rows in the new order: the same rows are dropped, every row has the same numbers, and labels move along with their rows (if there are none, the rows are numbered anew). This holds for code that works row by row and whose stateful transforms do not care about the order; center, standardize, cr, cc, bs and te do not. The condition that equal objects (2 and 2.0, True and 1) are not mixed in categorical data is needed: otherwise the first one becomes the level and gives the column its name.", "quantifier": "all formulas, all data with any number of rows, all rearrangements, all settings of the missing-value policy, all orders in which sets and dictionaries are visited", "why_tests_cant": "no test builds the same design from data in different orders; the number of rearrangements is n!", "anchors": ["patsy/highlevel.py:dmatrix,dmatrices", "patsy/build.py:build_design_matrices,_examine_factor_types", "patsy/categorical.py:CategoricalSniffer", "patsy/state.py", "patsy/mgcv_cubic_splines.py", "patsy/splines.py"]}
{"id": "C66", "title": "Designs built from chunks equal those of the whole data", "statement": "If data come in chunks, the designs that incr_dbuilder and incr_dbuilders make of the chunks are the design_info of the matrices that dmatrix and dmatrices make of the whole data (names, types, levels, codings, memorised states), and those matrices are the matrices that build_design_matrices builds from the chunks one by one, one above the other: the same rows are dropped, every row has the same numbers, and labels of rows are kept. This holds for code that works row by row and whose stateful transforms do not mind chunks. The condition that zeros and ones are not mixed with other objects in categorical data is needed: if the first chunk has only 0 and 1, the other levels are lost and the later chunks are rejected.", "quantifier": "all formulas, all data, all ways to cut them into any positive number of chunks, all settings of the missing-value policy, all orders in which sets and dictionaries are visited", "why_tests_cant": "patsy's tests compare a few formulas on two fixed chunks and do not compare the designs with those of the whole data; equality for every way to cut the data cannot be enumerated", "anchors": ["patsy/highlevel.py:incr_dbuilder,incr_dbuilders,dmatrix,dmatrices", "patsy/build.py:design_matrix_builders,build_design_matrices,_examine_factor_types", "patsy/categorical.py:CategoricalSniffer", "patsy/state.py"]}
{"id": "C67", "title": "A design is made again by its own terms", "statement": "DesignInfo.terms lists every term of the model once, in the order of the columns (the intercept first), which is usually not the order of the formula. Given back as a ModelDesc for the same data, these terms give designs with the same column names, the same slices for the same terms, and the same matrices for the same data and for all new data.", "quantifier": "all lists of models, all data and chunks, all formula texts whose expressions print and read back, all missing-value settings, all orders in which Python goes through sets", "why_tests_cant": "The order of columns and the removal of redundancy depend on the order of the terms, so that feeding the reordered terms back could change the coding; that it never does is a statement about all models.", "anchors": ["patsy/design_info.py:419-429", "patsy/build.py:411-502", "patsy/build.py:693-796", "patsy/redundancy.py"]}
{"id": "C68", "title": "What the text of a design says", "statement": "DesignInfo.describe() is the sum of the terms of the design, written as their names in the order of the columns with 1 for the intercept, unless a term other than the intercept is named Intercept (such a variable is shown as 1). Read as a formula (a left-hand side before ~ if there is one) the text gives exactly these terms in this order, but with an intercept on the right-hand side in any case. So it reproduces the matrices if the design has an intercept, and means another model if it does not.", "quantifier": "all designs made from formulas, all terms and names of factors that read back", "why_tests_cant": "patsy's tests compare a few strings; what the text means when it is read again, for every design, is a claim about the parser, the order of terms and the coding together.", "anchors": ["patsy/design_info.py:557-588", "patsy/desc.py:164-179", "patsy/parse_formula.py:140-155"]}
{"id": "C69", "title": "Blanks in a formula do not matter", "statement": "Two formulas that consist of the same Python tokens (same type and text, in the same order), whatever stands between them, mean the same model, with the same terms and factors in the same order, or are rejected with the same kind of error; so dmatrix and dmatrices return the same matrices for them. Ends of lines at the end of the text do not matter either.", "quantifier": "all streams of Python tokens, grammatical or not, with arbitrary positions; all data", "why_tests_cant": "Positions are threaded through the tokenizer, the parser and the evaluator, which asserts about them and stores them; that none of this influences the result for any formula is a statement about all inputs.", "anchors": ["patsy/parse_formula.py:36-155", "patsy/infix_parser.py:125-240", "patsy/desc.py:210-456", "patsy/tokens.py:25-64"]}
{"id": "C70", "title": "The code of a factor sees the variables that it names, as they were", "statement": "Every Python expression without lambdas and comprehensions is accepted as a factor, and exactly those with one anywhere inside are refused with a PatsyError. Whatever an accepted expression does (operators that skip operands, assignment expressions, calls, nested to any depth), its value is the one Python gives when every name is looked up in the data, then among the stateful transform objects, then in the scopes of the environment as they were when the design was made, then in patsy's builtins, then in Python's. Rebinding a variable of the environment afterwards has no effect, and no name that the expression needs is missing from what patsy keeps.", "quantifier": "all expressions (syntax trees of any size), environments, data, states of all scopes before and after, and all meanings of operators and functions", "why_tests_cant": "patsy keeps only those variables whose names ast_names finds by walking the tree; that the walk misses none, for any nesting and any short-circuit, is a statement about all trees. Tests try four expressions.", "anchors": ["patsy/eval.py:101-118", "patsy/eval.py:169-179", "patsy/eval.py:253-258", "patsy/eval.py:496-526", "patsy/eval.py:580-588"]}
{"id": "C71", "title": "Levels of all kinds are put into one definite order", "statement": "The automatically detected levels of a factor, whatever hashable objects they are (numbers of all types, strings, None, tuples nested to any depth, instances of other classes, mixed), are put into the order: numbers by value, then everything else by the name of its class and within a class by Python's <. This order depends only on which levels there are: not on the order in which the set of levels is enumerated (hash seeds) and not on memory addresses, so that two runs of the same program give the same columns.", "quantifier": "all finite sets of hashable objects, all enumeration orders, all memory addresses", "why_tests_cant": "SortAnythingKey mixes four criteria, the last of which is the memory address; whether the mixture is an order is a statement about all triples of objects, and whether addresses matter cannot be seen in one process.", "anchors": ["patsy/util.py:560-617", "patsy/categorical.py:182-187"]}
{"id": "C72", "title": "Only what the variables span matters: other units, origins, bases and names of levels give the same model", "statement": "If a variable is replaced by a linear function of it (other units), or by an affine one where the model also has the terms without that variable (center(x), standardize(x), Fahrenheit instead of Celsius in 1 + a + a:x), or several columns by others that span the same (another basis of the same curves), or the levels of a factor are renamed, so that their order and the reference level change, then the matrix that dmatrix returns has the same number of rows and the same column space, and linear regression has the same fitted values for every outcome. If the new variables can be computed from the old ones, but not the other way round, the new model fits at most as well. Without the marginal terms the claim is false: center(x) alone is another model than x alone.", "quantifier": "all formulas, data sets, numbers of rows and levels, interactions of any order, missing values, contrasts that are bases, affine maps and linear combinations, outcomes", "why_tests_cant": "It relates two runs on different data or with different transforms, for all interactions; every such change alters the coding of several columns at once. Tests compare matrices with stored numbers.", "anchors": ["patsy/build.py:277-297", "patsy/build.py:693-796", "patsy/state.py:92-132", "patsy/highlevel.py:150-227", "patsy/redundancy.py:206-259"]}
{"id": "C73", "title": "Equal factors, terms, origins and environments are interchangeable", "statement": "== on EvalFactor, LookupFactor, Term, Origin and EvalEnvironment is an equivalence relation, equal objects have equal hashes, and objects of different classes are never equal; so they can be mixed in sets and used as keys of dictionaries, where looking up an object finds exactly what was stored last under an equal one. Terms are equal if and only if they have the same factors in any order, EvalFactors if and only if their normalised code is the same text wherever they stand, Origins and EvalEnvironments if and only if code and positions, or flags and namespaces, are the same. Factors of a user may be mixed in, provided that they keep the contract themselves.", "quantifier": "all objects of these classes, all factor classes of users that keep the contract, all hash functions", "why_tests_cant": "Transitivity and the agreement of == with hash are statements about all pairs and triples of objects; a set that misbehaves does so only for particular hashes. Indeed the tests do not notice that _Subterm.__eq__ holds between every two subterms.", "anchors": ["patsy/desc.py:42-54", "patsy/eval.py:260-274", "patsy/eval.py:488-495", "patsy/user_util.py:220-241", "patsy/origin.py:79-91", "patsy/redundancy.py:58-109", "patsy/util.py:343-350"]}
{"id": "C74", "title": "Predictions do not depend on the units, origins, bases and names of levels in which old and new data are given", "statement": "Take a model and its design_info, new data, and another model on another description of the same old and new rows, where each variable of one description is computed from the other by the same rule on the old and on the new rows: other units, another origin where the terms without the variable are in the model (center(x), which subtracts the mean of the old data from old and new rows alike), another basis of the same curves, renamed levels. Then build_design_matrices on the new data gives matrices with the same number of rows, and if the columns of the first matrix are independent, linear regression on the old data followed by prediction on the new data gives the same predictions with both models, for every outcome. The rule has to be the same: a function that subtracts the mean of whatever data it is called with gives other predictions, although the fitted values are the same.", "quantifier": "all formulas, old and new data sets, NA actions, interactions of any order, contrasts that are bases, affine maps and linear combinations, outcomes", "why_tests_cant": "It relates four matrices of two runs with different transforms, codings and data; tests compare single matrices with stored numbers.", "anchors": ["patsy/build.py:799-961", "patsy/build.py:277-297", "patsy/state.py:92-132", "patsy/highlevel.py:293-322", "patsy/build.py:693-796"]}
{"id": "C75", "title": "patsy's own OrderedDict remembers the order of insertion, whatever is done with it", "statement": "The OrderedDict that patsy uses for term codings, column names and slices when PATSY_AVOID_OPTIONAL_DEPENDENCIES is set keeps its doubly linked list and its dictionary together: after any sequence of setting, deleting, pop, popitem from either end, setdefault, update, copying and pickling, everything that it returns (values, KeyErrors, length, membership, keys, items, reversed keys) is what a list of pairs in the order of first insertion would return. A key that is set again keeps its place, a key that is deleted and set again goes to the end, and no loop over the dictionary runs for ever. Two such dictionaries are equal if and only if they have the same pairs in the same order.", "quantifier": "all sequences of operations of any length, all keys and values", "why_tests_cant": "The state is a cyclic linked list that every operation rewires; a wrong link shows only after particular sequences of insertions and deletions. The class is excluded from coverage in the repository.", "anchors": ["patsy/compat_ordereddict.py:24-253", "patsy/compat.py:26-31", "patsy/design_info.py:277-369", "patsy/build.py:630-660"]}
{"id": "C76", "title": "clear empties patsy's own OrderedDict", "statement": "After clear() the OrderedDict of patsy is like a new one: a loop over it gives nothing, items() is empty, and keys that are set afterwards appear once.", "quantifier": "all dictionaries that can be made by the operations of C75", "why_tests_cant": "The class is excluded from coverage and no test calls clear(); the error is swallowed by an except clause, so it shows only when the cleared dictionary is used again.", "anchors": ["patsy/compat_ordereddict.py:88-98", "setup.py:35"]}
{"id": "C77", "title": "Adding terms to a formula leaves the columns of the terms that were there unchanged", "statement": "If terms are added at the end of a formula and no new term has fewer factors than an old term with the same numerical factors (for instance interactions after main effects, or variables of a new kind), then the old terms keep their coding: the columns of the smaller design carry the names that the larger design gives to the columns of the same terms, and when both designs are built on the same data the matrix of the smaller model consists of these columns of the larger matrix. So the models of a sequential comparison are nested column by column, and coefficients of old terms keep their meaning. The condition is needed: adding x to a:x changes the columns of a:x.", "quantifier": "all lists of old and new terms with at most this condition, all data, all contrasts, all names", "why_tests_cant": "The tests compare the columns of single formulas; that the redundancy analysis of a term depends only on the terms that come before it in its group, for every formula and every extension of it, is a statement about pairs of formulas of any length.", "anchors": ["patsy/build.py:627-690", "patsy/redundancy.py:241-259", "patsy/build.py:691-800", "doc/formulas.rst:425-450"]}
{"id": "C78", "title": "The columns of each term are what it adds to the terms on its left", "statement": "As the manual says, the columns associated with each term represent the additional flexibility that the model gains by adding that term on top of the terms to its left: for every position in the sorted list of terms, the columns up to and including those of the term span exactly what the columns on its left span plus the functions that the term describes. On data that are rich enough, the term has exactly as many columns as the dimension of the model grows by. So F tests on the term slices, taken in order, are the tests of the sequence of models.", "quantifier": "all formulas, all positions, all admissible contrasts, all data (for the number of columns: all rich data)", "why_tests_cant": "It is a statement about linear spans for every prefix of every formula; the tests look at ranks of a few whole matrices.", "anchors": ["doc/formulas.rst:436-446", "patsy/build.py:627-690", "patsy/redundancy.py:241-259"]}
{"id": "C79", "title": "DesignInfo.slice with an integer selects that column", "statement": "The slice that DesignInfo.slice returns can be used directly for indexing: for an integer i it selects exactly the column that i selects in Python (negative indexes count from the end), for a term or name exactly the columns of that term or name, and a slice object is handed through.", "quantifier": "all designs, all integers, terms, names and slices, all objects indexed by column", "why_tests_cant": "The tests look at slice(1) and slice(slice(2, 3)) of one design; the claim is about all integers, and fails for exactly one of them (-1).", "anchors": ["patsy/design_info.py:460-504"]}
{"id": "C80", "title": "Removing incomplete rows by hand makes no difference, unless states or levels depend on them", "statement": "If rows are removed from the data before dmatrix/dmatrices is called, and only such rows as would have been dropped anyway because a factor is missing in them, then the call gives the same design and the same matrices (and the same labels of rows), provided that the factors remember the same states and that every level of a categorical factor still occurs. Both conditions are needed: center(x) takes the mean also over rows that are dropped because y is missing, and a level that occurs only in dropped rows has a column of zeros. If exactly the complete rows are left, NA_action='raise' succeeds with the same result.", "quantifier": "all formulas, data, missingness patterns, sets of removed rows", "why_tests_cant": "It relates two runs on different data for every formula and every pattern of missing values; the tests look at a few fixed arrays.", "anchors": ["patsy/build.py:880-960", "patsy/missing.py:163-188", "patsy/build.py:485-511", "patsy/highlevel.py:58-80"]}
{"id": "C81", "title": "The ways to demand values of columns agree", "statement": "For a design whose column names do not begin with an operator, parenthesis, digit, point or blank (and none of which reads like another one followed by an equality sign), demanding that some columns have some values gives one and the same LinearConstraint, whether it is written as a text with equations separated by commas, a list of such texts, a dictionary with names or positions as keys, or a matrix and a vector; and it says exactly that the coefficients of these columns have these values. A column name alone, given as a constraint, demands that this column is zero if and only if the name does not begin with an operator or parenthesis.", "quantifier": "all lists of column names, all selections of distinct columns, all decimal literals", "why_tests_cant": "The tests compare a handful of fixed texts with fixed matrices; the claim is about all column names, in which any characters may follow the first one, and any number of equations.", "anchors": ["patsy/design_info.py:506-555", "patsy/constraint.py:378-437", "patsy/constraint.py:186-214"]}
{"id": "C82", "title": "Looking ahead does not change the sequence of tokens", "statement": "A PushbackAdapter shows, whatever is done with it, what a plain sequence shows from which next takes the first element, to which push_back adds one in front, and at which peek and has_more only look. Hence the tokenizer of formulas, which pushes tokens back and reads them again, sees every token exactly once, and annotated_tokens gives every token of the code once and in order, calling it a bare reference exactly if it is a name not directly after a dot and a bare call exactly if moreover an opening parenthesis comes next.", "quantifier": "all sequences, all programs of operations on the adapter, all codes", "why_tests_cant": "The test runs one program of sixteen operations on one sequence; the claim is about all interleavings of reading, pushing back and looking ahead.", "anchors": ["patsy/util.py:400-434", "patsy/parse_formula.py:36-96", "patsy/eval.py:730-740"]}
{"id": "C83", "title": "Least squares on the matrices of a formula reproduces cell totals and gives the coefficients that the contrasts promise", "statement": "Let a regression be fitted by least squares to the right-hand matrix that dmatrices or dmatrix builds for a formula. Then the fitted values are exactly those functions of the model whose sums over the cells of the categorical factors of each term, weighted with products of columns of its numerical factors, agree with those of the outcome. In particular, in every cell of a term without numerical factors (in all rows, for the intercept) the fitted values and the outcome have the same total, and if all factors are categorical and one term contains them all, the fitted values are the cell means. For `y ~ a` with a categorical factor whose levels all occur, the coefficients are what the contrast promises of the group means: with the default contrast, the intercept is the mean of the first group and the other coefficients are differences from it; with Sum, the intercept is the mean of the group means, which is the overall mean in a balanced design, and the others are deviations from it; with Helmert, the others are the differences of the groups from the mean of the group means before them, divided by the number of the level; with Diff, they are the differences between successive groups. For `y ~ 0 + a` they are the group means. For `y ~ x` with a numerical factor of one column that is not constant, the slope is the sum of the products of the deviations of x and y from their means divided by the sum of the squared deviations of x, both over the rows that are kept, and the line goes through the point of the means. For `y ~ a * b` with two categorical factors whose combinations of levels all occur, the coefficients are what the contrast of b promises of what the contrast of a promises of the cell means: with the default contrasts the intercept is the mean of the first cell, the main effects are differences from it at the first level of the other factor, and the interactions are differences of differences, ordered with the first factor varying fastest. For `y ~ a + x` with a categorical and a numerical factor, x not constant in all groups, the last coefficient is the common slope, computed from the deviations from the group means, and the others are what the contrast promises of the intercepts of the groups: group mean of y less slope times group mean of x.", "quantifier": "all formulas, data sets, outcomes, contrasts that are bases (as those that come with patsy are), numbers of levels; exact arithmetic over any ordered field", "why_tests_cant": "No test of patsy fits anything, and it would be one data set; that the coefficients mean what the documentation of the contrasts says depends on the parser, the coding of terms, the contrast matrices and the treatment of missing rows together, for all data.", "anchors": ["patsy/contrasts.py:143-200", "patsy/contrasts.py:364-425", "patsy/build.py:627-690", "patsy/highlevel.py:254-324", "doc/categorical-coding.rst:1-60"]}
{"id": "C84", "title": "A design is the same alone and in company", "statement": "The design matrix of the right-hand side of a formula does not depend on what stands on the left: dmatrices(\"y ~ x + a\", data) and dmatrix(\"x + a\", data) give the same columns, column names, terms and slices for x + a, and the same matrix, except that dmatrices also drops the rows in which the left-hand side is missing. In general, a list of terms that is given to design_matrix_builders together with others gets the design that it gets on its own: interchangeable for build_design_matrices on all data.", "quantifier": "all formulas, other lists of terms, data sets, chunks, stateful transforms, orders in which sets are visited", "why_tests_cant": "design_matrix_builders memorises and types the factors of all designs together and passes one dictionary to each of them, and build_design_matrices drops rows by all of them; tests look at single pairs of formulas. That nothing leaks from one side to the other is a statement about all of them.", "anchors": ["patsy/build.py:627-690", "patsy/build.py:693-780", "patsy/build.py:799-960", "patsy/highlevel.py:150-324"]}
{"id": "C85", "title": "Demanding that added coefficients vanish gives the smaller model", "statement": "If one formula is another one with further terms, then the hypothesis that all columns of the further terms have coefficient 0, stated with design_info.linear_constraint of the larger design (as a dictionary with the names of the added columns, or as a text like \"b[T.1] = 0, x = 0\"), describes the smaller model: least squares with the larger matrix under this constraint has the same fitted values as least squares with the matrix of the smaller formula, unless the further terms lose rows because of missing values; in that case it is the smaller design restricted to the rows that are left.", "quantifier": "all pairs of nested formulas, with or without a left-hand side, whose further terms stand after the shared ones, data sets, stateful transforms, outcomes", "why_tests_cant": "Tests of linear_constraint look at the numbers in coefs and constants for a few names. That names, columns, terms and coding fit together so that a constraint on names of the larger design is the column space of another formula is a statement about all formulas and data.", "anchors": ["patsy/design_info.py:506-555", "patsy/constraint.py:378-437", "patsy/redundancy.py:149-259", "patsy/build.py:693-780"]}
{"id": "C86", "title": "The pieces of one term come in a fixed order", "statement": "Patsy codes a term as one or more pieces (entries of DesignInfo.term_codings), each for some of the categorical factors of the term. The pieces of a term are coded for different sets of factors, pieces with fewer factors come first, and among pieces with equally many factors the one whose first differing factor is written first in the term. This does not depend on what earlier terms have used up, nor on hashes of the factors.", "quantifier": "all terms, sets of numerical factors, earlier terms", "why_tests_cant": "The column order of a term depends on it. Tests show a few terms with two or three factors, where comparing only the first factor gives the same order; a difference needs terms with several pieces and many factors.", "anchors": ["patsy/redundancy.py:149-170", "patsy/redundancy.py:188-203", "patsy/redundancy.py:241-259"]}
