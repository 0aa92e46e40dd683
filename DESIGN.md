# Formal model of patsy: design and trusted base

Target: `pydata/patsy`, source tree in `/repo` (read as text, never run).
Everything here is Lean 4.33.0; Mathlib is imported one module at a time.

## 1. Layout

| place | content |
|---|---|
| `lean/Verif/Model/*.lean` | the model: one Lean definition per Python function, each citing file and lines |
| `lean/Verif/Spec/*.lean` | small independent specifications (grammars, set algebra, linear algebra) that do not mention the model |
| `lean/Verif/Lemmas/*.lean` | helper lemmas |
| `lean/Verif/Props/*.lean` | the property theorems, each followed by a concrete non-trivial `example` that meets its hypotheses |
| `lean/Verif/Conformance/*.lean`, `conformance/*.py` | patsy's own tests (tables of formulas, code, constraints, contrasts, end-to-end tests) run on the model; partly generated from the test files in `/repo` by the scripts. Tests of the model, not proofs of properties |
| `MANIFEST.json` | property -> theorem names |
| `seeded/LOG.jsonl` | log of deliberately wrong models and what they broke |

Conventions of the model: Python exceptions are values (`Except`), with
`PatsyError`, `AssertionError`, `IndexError`, ... kept apart; Python lists are
`List`; Python dictionaries are association lists or functions; NumPy arrays are
lists of rows or functions on `Fin`; floating point numbers are replaced by an
exact field (`ℚ`, or an arbitrary ordered field), which is a simplification and
is repeated in the comment of every definition concerned.

## 2. Trusted base

* The Lean 4.33.0 kernel (and the Mathlib oleans the theorems import, which the
  kernel has checked).
* Axioms: only `propext`, `Classical.choice`, `Quot.sound`. No own axioms, no
  `sorry`, no `native_decide`, no `bv_decide`. See section 5.
* The correspondence between the Lean model and the Python code, which is by
  reading: every model definition cites the lines it mirrors and says where it
  simplifies.  As a check of the reading, expected results in patsy's own test
  suite were transcribed and are compared with what the model computes
  (`lean/Verif/Conformance`).
* Behaviour of Python, NumPy, pandas and SciPy primitives where the model uses
  them (stated in the definition comments).

## 3. Plan per property

| id | what is modelled | how it is proved |
|---|---|---|
| C01 | `redundancy.py` completely: subsets, expanded factors, absorb loop, used set | interpret a piece as an interval of the subset lattice; the piece list always is a partition of the unused subsets (invariant of the loop); induction over the terms |
| C02 | same, assertions as explicit error outcomes | corollary of the disjointness invariant, length of the list decreases |
| C03 | the columns of a design made by `makeDesign` (`Model/Setup.lean`), as products of contrast entries and numerical columns (`IsMatrix`, C10) | pieces of the terms are disjoint (C01); products of dual bases over the finite set of factors give independence, decomposition of a function of the levels into reduced and constant parts gives the span (`Lemmas/Rank.lean`, `Lemmas/RankDesign.lean`); over any field |
| C04 | membership test by an arbitrary hash function | parametrise C01 by the hash; injectivity gives C01; concrete colliding hash gives a lost column |
| C05 | `infix_parser.py` shunting-yard with explicit stacks | relational precedence grammar on concrete trees; soundness and completeness by stack invariants |
| C06 | same, IndexError/AssertionError as explicit outcomes | stack invariant; empty input as witness for the IndexError |
| C07 | origins in the parser and `Origin.combine` | the origin invariant is carried with the stack invariant |
| C08 | `desc.py` evaluator | structural induction over parse trees |
| C09 | same | membership characterisation of each operator |
| C10 | `_eval_binary_power` | list-level induction on the exponent, subset argument for saturation |
| C11 | evaluator, tilde handling | induction over the summand list |
| C12 | `ModelDesc.describe` as a token printer | the parser completeness theorem (C05) applied to the printed tree, then evaluation by induction |
| C13 | `_tokenize_formula`, `_read_python_expr` on Python token streams (the Python tokenizer itself is a parameter) | induction over the stream |
| C14 | `pretty_untokenize` | induction; counterexample to re-tokenisation recorded; `Spec/Blanks.lean` says where blanks stand from the role of each token (sign, operator, starred argument, slice, keyword), and the loop state is shown to compute these roles |
| C15 | `missing.py` + the NA part of `build_design_matrices` | mask algebra |
| C16 | `build_design_matrices` with row-wise factor evaluation | induction over chunks |
| C17 | `_column_combinations`, `_build_subterm`, names | mixed-radix induction |
| C18 | bucket ordering of `_make_subterm_infos` | permutation + order lemmas on stable insertion |
| C19 | `DesignInfo.__init__` slices, `slice` | induction over term sizes |
| C20 | `DesignInfo.subset` + `_build_design_matrix` | block decomposition |
| C21 | `_factors_memorize` event traces | induction over passes, visiting order as a parameter |
| C22 | the `pass_bins` scheduling loop | rank function on nesting depth |
| C23 | `Center`, `Standardize` (Welford) over ℚ | algebraic invariant of the running mean and M2 |
| C24 | `CategoricalSniffer` over Python scalars with Python equality (`True == 1`) | set of seen levels as fold; counterexample as a proved negation, `_partial` theorem |
| C25 | `categorical_to_int` | lookup lemmas |
| C26 | `contrasts.py`: Treatment, Sum, Helmert, Diff, Poly with their loops over NumPy index arrays, over a field (Poly over ℝ); `argsort` and `qr` are parameters with contracts | the entries of each matrix as a closed form; unique solvability of "cell means = coding × coefficients" for every n; invertibility of the matrix follows |
| C27 | same | the unique coefficients are computed; Poly: the columns are the orthonormal polynomials whatever QR routine is used |
| C28 | all of `constraint.py` (tokenizer, operators, evaluator, combine, mapping/list/tuple/array forms) over a field; numerals by a parameter | solutions of the matrix form = solutions of the written equations, by induction over the tree; a relational specification of the words of a text; acceptance characterised by the arithmetic meaning (which expressions are linear) |
| C39 | same | the trees of the library and of ordinary precedence have the same meaning, by rotating signs; the exception is a sign after a division sign (witness) |
| C29 | `VarLookupDict`, `EvalEnvironment` (except compiler flags), the environment of `EvalFactor`; dictionaries live in a heap; code is an interaction tree of loads and stores | running code in the heap = a semantics over a list of scopes; frame lemmas |
| C40 | `Q` (`builtins.py`) in the same model | lookup order; witness against the documentation |
| C30 | `_row_tensor_product` as in-place updates on a mutable column array | loop invariant on disjoint regions |
| C31 | `_map_cyclic`, `_find_knots_lower_bounds` over ℝ | `Int.floor` arithmetic, search lemmas |
| C32 | `_get_natural_f`, `_get_cyclic_f` assignment by assignment over ℝ (the linear solvers are exact), base functions, rows of `_get_free_crs_dmatrix` | closed forms of the matrices; diagonal dominance (Gershgorin) gives a unique solution, so `F 1 = 0`; with one or two free cyclic knots the sum is shown to be different from one |
| C41 | same | a row times coefficients is a line plus truncated cubes, hence C²; conversely a C² piecewise cubic function satisfies the tridiagonal system, which has one solution |
| C43 | same | the same argument for periodically continued knots and coefficients, over two periods; negation for one or two free knots |
| C42 | `_map_cyclic` for an array of integers (assignment truncates) | equality for integer bounds and inside the knots; witness otherwise |
| C33 | `_get_all_sorted_knots` (with `np.unique` and linearly interpolated percentiles), `memorize_chunk`, `memorize_finish` and `transform` of `BS` and `CubicRegressionSpline`; SciPy's `splev` and `qr` are parameters | quantiles of distinct data are strictly monotone, hence exactly the requested number of distinct knots; lengths |
| C44 | `_absorb_constraints`, `_get_centering_constraint_from_dmatrix`, `TE`; `qr` is any function that satisfies `IsQR` (orthogonal, upper triangular), and such functions exist (`exists_qr`) | linear algebra over the promised factorisation, and the spline spaces of C41, C43; negation for dependent constraints |
| C45 | `memorize_chunk` of `BS`, `CubicRegressionSpline` and `TE` | concatenation; the tensor product of stacked matrices is the stacked tensor product |
| C46 | `design_matrix_builders` (`Model/Builders.lean`), memorisation a parameter | inversion of the loops; the factor infos of a design come from one list, the identity is the position in it |
| C47 | `_examine_factor_types` with its three variables and the early exit | simulation: the state seen from one factor evolves as if the factor were alone |
| C48 | as C36 | a design without factors adds nothing to the evaluated factors, complete rows and index |
| C49 | as C03 | corollary of `columns_span`: the functions described by a marginal term are described by the containing term |
| C50 | as C38: pieces of terms with their numbers of columns | expand the product of (n - 1) + 1 over the full-rank factors of a piece; every effect is spanned by exactly one piece (C38), double counting |
| C34 | `balanced`, `demo_data` (with `itertools.product`, `zip(*…)`; the random numbers are a parameter, the quotient of row counts is exact) | the rows of one replicate are the product of the levels, which has no duplicates; counting rows modulo the length of a replicate |
| C35 | `uniqueify_list` | list induction |
| C37 | `redundancy.py` greedy simplification | concrete counterexample to minimality |
| C38 | `_make_subterm_infos` and the bucket loop together with the redundancy code | C01 applied to each bucket of the finished design |
| C51 | `BS.memorize_finish`, `BS.transform`, `_eval_bspline_basis` as for C33; FITPACK's `splev`/`fpbspl` restated (`Model/Splev.lean`), shown to meet the contract `EvaluatesSplines`; real numbers instead of floats | Marsden's identity gives the coefficients of a polynomial on every interval as a functional; it vanishes on polynomials that fit at a knot (existence), and the pieces that begin at a knot are divisible by the power of `x - knot` (smoothness); independence by dimension |
| C52 | `_make_subterm_infos`, `_subterm_column_names_iter`, `DesignInfo.__init__` as for C15 and C17; `design_matrix_builders` as for C47 | texts with brackets: labels joined by colons can be separated again, so equal column names have equal factors and equal columns; every check of `DesignInfo.__init__` and `SubtermInfo` is shown to succeed |
| C53 | `desc.py` evaluator as for C08 | a set-based meaning of parse trees as an inductive relation (`Spec/Meaning.lean`), independent of the evaluator; both directions by induction; the laws are proved for the set operations and lifted to trees |
| C54 | the whole pipeline `highLevelDesign` (C47) with the build model (C14, C48) and the evaluator of C53 | the space of the terms on the kept rows (`Spec/Fit.lean`, `Spec/ModelSpace.lean`) is defined from the factor values alone; C48's span theorem is carried through evaluation, level lookup and NA handling; least squares fits are unique by Pythagoras over an ordered field. Assumed: pandas codes are in range, a stateful transform memorises the same whatever other factors the formula has (proved for `EvalFactor`s in `Props/FitTransforms.lean`, see C55), contrasts are bases, hashes separate |
| C55 | `EvalFactor` (C18, C19) with its methods `memorize_chunk`, `memorize_finish`, `eval` and the objects in its state, `_factors_memorize` driving them (`Model/FactorMemorize.lean`); Python itself as a strict compositional evaluator of bracketed token trees, a parameter (`Model/Python.lean`); classes of stateful transforms as parameters and the classes of patsy except `te` (`Model/Builtins.lean`) | the right states are specified call by call (`Spec/Transforms.lean`) without passes or bins; the code after the replacement of names reads as the same tree with object calls (`readObjects_subst`), a pass leaves the objects outside of its bin alone, and the objects of a bin do not look at each other, so a run of all passes solves the equations of the specification and nothing else (`factor_iff`). Assumed: no `if`/`else`, `and`/`or`, `lambda`, comprehension or mutation in the code, no data variables with reserved names |
| C56 | `TE`, `_row_tensor_product`, `_absorb_constraints` (C30, C44), `CR` and `CC` (C43); an argument of `te` is any function from points to rows with a fixed number of columns | `Spec/TensorSpace.lean` says what it means to be a combination of columns in each variable separately, without tensor products. A space with finitely many generators is determined by finitely many points (induction on the generators); with this, induction on the variables. Centering: the constraint row is the mean row, which is not zero if some function has another mean (C44). The spline corollaries use C43. |
| C57 | `python_tokenize`, `_tokenize_formula`, `_read_python_expr`, `infix_parse` again (`Model/ErrorPosition.lean`), now as lazy generators and with the origin of the exception; `located_agrees` ties it to the models of C05, C06, C13 | `Spec/ErrorPosition.lean` says what a beginning of a formula is (by the grammar and `Tokenizes` only) and what is to blame. The parser's invariant shows that whatever was read without an error can be finished (a name and closing parentheses); tokens of a beginning do not depend on what follows, so a refused token is refused in every continuation. |
| C58 | nothing new: all models of `build.py`, `design_info.py`, `categorical.py` (exceptions are values of `Err`) | `Spec/Outcome.lean` lists the causes of failure (`BuildersFail`, `BuildFail`) in terms of what the factors evaluate to, their types and their contrast matrices. Each step is inverted for errors; the errors of patsy's own bookkeeping contradict what earlier steps established. `build_succeeds_iff` uses `Evaluation` of C01. |
| C59 | `EvalFactor.__init__` with `normalize_token_spacing` (eval.py:456-480), `ModelDesc.from_formula` (desc.py:164-179), `dmatrix`/`dmatrices` (highlevel.py:293-322) for text: `Model/Program.lean` composes the models of the tokenizer, parser, formula evaluation, memorisation, type inspection, design and matrices. What Python contributes (tokens of a text, evaluation, transforms, orders of sets) is a parameter `Interp`. | `Spec/Program.lean`: `StandsFor` (grammar, meaning, values in ordinary Python, types shown by values, rows) and `IsMatrixOf` (rows, span, independence), `OtherError`. Composition of C05, C13, C14, C53, C55, C47, C15, C03, C54 and C58. |
| C60 | `build_design_matrices` (build.py:799-961) with the `design_info` of a matrix of `dmatrix`/`dmatrices` (highlevel.py:293-322) or of an incremental design, on any further data; no new definitions, the models of C15, C47, C54, C55 and C59. | `Spec/Predict.lean`: `Extends` (with the same coefficients the old and the new matrix give exactly the functions of the terms on the old and new rows together), `Interp.remembered`/`Trained` (values with what the transforms remember of the old data), `Predicts`. Proved by putting the two matrices on top of each other: they are one matrix of the same coding (`isMatrix_append`), so the theorem on spans of C54 applies. `same_regression` follows with `fitted_unique`. |
| C61 | `Evaluator.eval` and the functions `_eval_*` (desc.py:235-456) again (`Model/EvalPosition.lean`), with the origin of the exception; `located_evaluation` ties it to the model of C08, C09, C53. Not modelled: a position for errors of `EvalFactor(code)`. | `Spec/EvalPosition.lean` says where an expression asks for the intercept (`AsksAt`) and which part is to blame (`Wrong`, `FormulaWrong`), using only parse trees and the meaning of expressions of C53. Both directions by induction, so the part to blame is unique and exists exactly if the formula means nothing (`one_culprit`). `formula_error_position` composes it with C57 and with the positions of C07. `Origin.caretize` and `PatsyError.__str__` (`Model/Message.lean`): `formula_error_message` shows that the message of every such error underlines a non-empty piece of the formula, exactly the one to blame. |
| C62 | `design_matrix_builders` and what it calls (the models of C21, C47, C54, C59) are parametrised by the orders in which sets are gone through and by the hash function; here two instances are compared. `LookupFactor` (user_util.py:172-262) in `Model/LookupFactor.lean`; not modelled: its origin, `__hash__`, pickling. | `Spec/Rename.lean` says when two settings differ only in what should not matter (`Alike`, `SameProgram`) and when results are the same (`TableAlike`, `SameTable`). Each step of the model commutes with renaming factors (`Lemmas/Rename*.lean`); `examine_factor_types` is replaced by what it computes for each factor alone (`examineTypes_own`), and sorting makes the order of a set of levels irrelevant if there is no NaN. `lookup_formula` uses `memorized_states` of C55. |
| C63 | `_tokenize_constraint`, `_EvalConstraint` and `infix_parse` again (`Model/ConstraintPosition.lean`), with the origin of the exception; `constraint_located_agrees` ties it to the model in `Model/Constraint.lean`. Simplified: division by zero is an error (the code goes on with infinities). | `Spec/ConstraintPosition.lean` says what is to blame with words, grammar and meaning only (`StuckAt`, `Disordered`, `Fault`). Scanner: induction over the text. Parser: the invariant of C57 for any table of operators. Evaluator: every error is a fault and every fault an error, by induction over the tree; the code evaluates some parts twice (equations in equations), which the order of the rules reflects. |
| C64 | `_format_float_column` and `DesignMatrix._repr_pretty_` (`Model/Print.lean`) with patsy's printer `_MiniPPrinter`. Not modelled: IPython's printer; `repr` of strings is a parameter. | `Spec/Print.lean` says what a decimal number, its value, rounding and a table are. The loop that strips zeros is described by the number of common trailing zeros; `rounded_unique` and `decimal_unique` show that the text can be read in one way. |
| C65 | The models of C36, C47, C53 and C55 (`highLevelDesign`, `Interp.dmatrix`, `Interp.dmatrices`) and the transforms. | `Spec/Reorder.lean` says what it means that a list, a value and a matrix are the same with the rows in another order, and when code does not care about the order. The levels and types found are shown to be the same for a permuted list, the evaluated columns are moved, and the build is followed step by step. Exact arithmetic. |
| C66 | The models of C36, C47, C53 and C55 (`incrDbuilder(s)`, `buildDesignMatrices`, `dmatrix`, `dmatrices`, `Interp.setting`). | `Spec/ChunkedDesign.lean` says what it means that labels, values and matrices are put together from those of the chunks, and when code does not mind chunks. The types found on the chunks are shown to be those of the whole data, the evaluated factors are joined, and the build is compared with the builds of the chunks. Exact arithmetic. |
| C67 | `DesignInfo.terms`, `DesignInfo.term_names` (`Model/DesignTerms.lean`), the models of C18, C36 and C55. | `Spec/OwnTerms.lean` says when two designs have the same columns. Sorting into buckets and by degree is idempotent, hence so is `makeSubtermInfos`; the factors of the design come in another order, which does not matter (C62), so the designs are the same up to the order of their factors and the identities of their objects, and `build_design_matrices` does not see these (`own_terms`). `design_terms`: the terms of a design are those of the model, each once, the intercept first. `own_terms_text` for texts of formulas. |
| C68 | `DesignInfo.describe` (`Model/DesignTerms.lean`) as a string; the parser of C04 and the evaluator of C07 read the tokens that it spells. That Python's tokenizer splits the string into these tokens is not modelled (as in C12). | `describe_text`: the string is the spelling of the tokens of the sum of terms. `description_means`: these tokens are parsed and evaluate to the terms with an intercept added. `description_reproduces`: with an intercept the matrices are the same (by C67). Violations: `describe_forgets_zero`, `describe_intercept_variable`. |
| C69 | The models of C05, C06, C13 (tokenizers, parser) and C07–C11 (evaluator); `Interp.fromFormula`. | `Lemmas/Positions.lean`: every step commutes with setting all positions to zero (for the parser through the grammar of C05), errors included. `Spec/Spelling.lean` gives the Python tokens of the texts of `ModelDesc.describe` and `DesignInfo.describe`; `Lemmas/Spelling.lean` shows that the tokenizer of formulas cuts them into the formula tokens of C12 and C68, so both round trips hold for texts (`describe_roundtrip_text`, `description_reproduces_text`). |
| C70 | `ast_names` over Python's syntax trees, the environment of a factor made from it, replaced calls on trees; Python's operators, their short cuts and functions are parameters | `ast.walk` meets exactly the parts of a tree; running an expression = its meaning in scopes; the meaning depends only on the names that occur |
| C71 | `SortAnythingKey` for nested tuples and instances, with memory positions; agrees with the model of C24 on scalars | Python's `<` is transitive and total where defined; with the classes this makes the order of levels; witness of a circle |
| C72 | nothing new: the model of C54, run on two data sets with two settings | one factor after the other is replaced in the products (`mixed_mem`), both directions; witness that the condition on constants is needed |
| C73 | `__eq__` and `__hash__` of all classes that have them, sets and dictionaries of Python as lists with hash and `==` | sets up to `==` as lists of equivalence classes without duplicates |
| C74 | nothing new: the model of C60, run with two settings on two descriptions of the same old and new rows | the functions of one model on the old and new rows together are functions of the other (`expressed_le` of C72), and predictions are determined by the fitted values (`prediction_unique` of C60); witness that the rule must be the same on old and new rows |
| C75 | `Model/OrderedDict.lean`: `patsy/compat_ordereddict.py` with its doubly linked list, nodes at addresses that are written | refinement: `Represents` (segments of links forwards and backwards, keys at the nodes, the two dictionaries) is kept by every operation; the specification is a list of pairs (`Spec/OrderedDict.lean`) |
| C76 | `clear` on Python 3 | false; all keys stay in the linked list (`clear_keeps_keys`), exact condition `clear_iff` |
| C77 | the models of C18, C20 and C46 (`_make_subterm_infos`, `design_matrix_builders`, `build_design_matrices`); `Spec/Extend.lean`: `Later` | the stable sort puts the new terms of a group last and the used subterms depend only on earlier terms (`makeSubtermInfos_append`), so the smaller design has some of the term codings of the larger one; columns by slices as in C20 (`nested_designs`); the same when the two designs and matrices are made in separate calls, by putting the two calls together with C84 (`nested_calls`; with a left-hand side `nested_sides`; from the text `text_nested`); witness for the need of the condition (`added_main_effect`) |
| C78 | as C03 and C49 | the first terms of a design get the codings that they would get alone (`makeSubtermInfos_take`, from C77 and C67), so the span theorem of C03 (`coding_span`) holds for every prefix (`leading_columns_span`, `additional_flexibility`); dimensions by independence (`gained_dimension`); end to end with `designs_made` (`built_flexibility`) |
| C79 | `DesignInfo.slice` for all kinds of arguments, Python slices (`slice.indices` and subscription) | case distinction over the bounds (`slice_of_integer_partial` is the exact description); names and terms from C19 (`slice_of_key`) |
| C80 | the models of C15, C46 and C36 (`design_matrix_builders`, `build_design_matrices`, `_do_highlevel_design`); `Spec/CompleteCases.lean`: `Picked`, `Thinned`, `LevelsLeft` | the sniffers find the same set of levels (`levels_picked`), so the same design is made (`builders_picked`); the complete rows among those left are the complete rows (`build_picked`); for formulas given as text (`ThinnedFactor`) the hypotheses speak of the values of the code (`text_complete_cases`); witnesses for the conditions |
| C81 | the model of C28 and `DesignInfo.linear_constraint` (`Model/DesignConstraint.lean`); `Spec/ConstraintWays.lean`: `columnsEqual`, `equationsText`, `Mentionable` | the tokens and the tree of an enumeration of equations are given explicitly, and evaluated by induction (`equations_string`); a text that begins with an operator does not mention the column of that name (`lexed_not_self`) |
| C82 | `PushbackAdapter`, and the loops of `_read_python_expr`, `_tokenize_formula` and `annotated_tokens` as they use the object (`Model/Pushback.lean`) | a simulation: the object behaves like the list of what is still to come (`run_observe`); the loops give what the models on lists give (`tokenizeLoop_eq`, `annotated_eq`) |
| C83 | nothing new; cells, group means and solutions of least squares are specified in `Spec/CellMeans.lean`, means and deviations in `Spec/Line.lean` | the normal equations (`normal_equations`) turned into sums over cells with the column space of C54 (`fitted_cells`); for one factor, `_make_subterm_infos` is computed, so that the matrix is the constant and the contrast matrix (`matrix_reduced`, `matrix_full`), and C26/C27 give the coefficients; for one numerical factor the matrix is the constant and the column of the factor, and the two normal equations are solved (`Props/Line.lean`); for two crossed categorical factors the same computation gives the constant, both contrast matrices and their products, and `IsReduced` is applied to `a` for every level of `b`, then to `b` (`Props/Crossed.lean`); for a categorical and a numerical factor the normal equations are solved group by group (`Props/Parallel.lean`); `text_carry` takes results about models to formulas given as text (`Props/CoefText.lean`) |
| C84 | nothing new; `Spec/Alone.lean`: interchangeable designs, rows of a matrix, factors memorised independently | a design depends only on the values of its own factors (`makeDesign_local`), and the numbers that stand for the identity of factor infos can be renamed (C64's `buildDesignMatrices_rename`), so the design made in company is the one made alone (`design_alone`); the rows that are complete for all designs are some of those that are complete for one (`build_together`, `matrix_alone`); `dmatrices` against `dmatrix` (`right_side_alone`), and from the text, where the memorised states of a factor are those of its own calls, C48 (`text_right_side`) |
| C85 | nothing new; `Spec/Hypothesis.lean`: least squares under a constraint, the demand that added columns vanish | the smaller design consists of slices of the larger one (C77's `text_nested`), the names of a design are distinct, so the coefficients that satisfy the constraint (C28's `mapping_meaning`; C81 for the text) combine exactly the columns of the smaller design (`constrained_span`, `constrained_fit`); for any design (`design_hypothesis`); from the text: `text_hypothesis`, for `dmatrix` `text_hypothesis_one` |
| C86 | nothing new; `Spec/PieceOrder.lean`: fewer factors first, then the order of the factors in the term | two stable sorts one after the other order by the second criterion and then by the first (`sorted_twice`); merging pieces keeps the factors of the longer one, so the coded pieces are some of the sorted subsets, in that order |
| C36 | all of `highlevel.py` except the capture of the environment, `DesignInfo.from_array`, `DesignMatrix.__new__`, `asarray_or_pandas` (`Model/HighLevel.lean`) | case analysis; the complete description of `build_design_matrices` (C15) on the designs of C46; a term of a bucket that is coded first has an all-full-rank piece, hence a column |

## 4. Not modelled

* Python's own tokenizer, `eval`, `ast` (parameters of the model).
* pandas objects, dtype promotion, float rounding, printing of matrices.
* SciPy's compiled code: `splev` is a parameter with a contract (`EvaluatesSplines`), or the algorithm of FITPACK restated (`Model/Splev.lean`); `qr` is a parameter with a contract.

## 5. Axioms

Produced by `#print axioms` for every theorem named in MANIFEST.json.  Only the three standard axioms of Lean occur (`propext`, `Classical.choice`, `Quot.sound`); no theorem uses `sorryAx`, `Lean.ofReduceBool` or an axiom of this project.

- **Classical.choice, Quot.sound, propext**: `absorbed_constraints_complete_iff`, `absorbed_constraints_complete_partial`, `absorbed_constraints_hold`, `absorbed_constraints_lose_columns`, `added_main_effect`, `additional_flexibility`, `alike_matrices`, `alike_predictions`, `alike_success`, `all_pieces_in_order`, `ambiguous_levels`, `ambiguous_names`, `array_accepted`, `array_meaning`, `ast_names_exact`, `ast_names_refuses_iff`, `bad_requests`, `balanced_counts`, `balanced_documented`, `balanced_no_rows`, `balanced_rows`, `balanced_shape`, `blank_constraint_crashes`, `blanks_irrelevant_matrices`, `bs_accepts`, `bs_chunkFree`, `bs_columns`, `bs_columns_of_knots`, `bs_independent`, `bs_lower_knot`, `bs_orderFree`, `bs_partition`, `bs_range`, `bs_splines`, `bs_splines_from_zero`, `bs_upper_knot`, `build_keeps_complete_rows`, `build_outcome`, `build_succeeds_iff`, `builders_accepted`, `builders_basis`, `builders_consistent`, `builders_independent`, `builders_no_data`, `builders_outcome`, `builders_treat`, `builds_extend`, `built_flexibility`, `builtin_good`, `builtin_real`, `builtin_suffixes`, `categorical_basis`, `cell_means`, `cell_totals`, `center_constraint`, `center_sees_dropped_rows`, `centring_without_intercept`, `chosenLevel_lt`, `chunked_build`, `chunked_values`, `chunks_of_zeros`, `chunks_together`, `chunks_together_one`, `codes_boolean`, `codes_boolean_keyError`, `codes_boxed_pandas`, `codes_boxed_pandas_rejected`, `codes_correct`, `codes_later_chunk_rejected`, `codes_levels_mismatch`, `codes_of_levels`, `codes_pandas`, `codes_unknown_rejected`, `coding_adds_exactly_new_effects`, `coding_exact_cover`, `coding_exact_cover_of_injective`, `coding_never_fails`, `coding_under_collisions`, `collision_loses_columns`, `colon_assoc`, `colon_comm`, `colon_distrib_right`, `colon_self`, `column_count`, `column_count_eq`, `column_sample`, `column_shown`, `columnsEqual_meaning`, `columns_cover`, `columns_exact`, `columns_exact_plain`, `columns_independent`, `columns_span`, `combinations_order`, `complete_cases`, `computed_column_space`, `computed_fit_le`, `computed_same_predictions`, `con_meaning`, `constrained_fit`, `constraint_accepted`, `constraint_error_found`, `constraint_error_position`, `constraint_failures`, `constraint_meaning`, `constraint_positions_sample`, `constraint_tokens_iff`, `constraint_usual_meaning`, `constraint_ways`, `cr_accepts`, `cr_center_columns`, `cr_center_space`, `cr_chunkFree`, `cr_columns`, `cr_columns_of_knots`, `cr_constrained_space_iff`, `cr_constrained_space_partial`, `cr_orderFree`, `cr_two_columns_crash`, `crossed_coefficients`, `crossed_treatment`, `cyclic_few_knots_miss_constants`, `cyclic_few_knots_sum`, `cyclic_map`, `cyclic_place_of_integers_iff`, `cyclic_row_at_knot`, `cyclic_row_of_integers_at_integers_partial`, `cyclic_row_of_integers_differs`, `cyclic_row_of_integers_inside_partial`, `cyclic_row_of_integers_partial`, `cyclic_row_sums_to_one_partial`, `cyclic_spline_space_partial`, `decimal_unique`, `default_levels`, `demo_data_balanced`, `demo_data_n`, `demo_data_no_levels`, `demo_data_succeeds`, `describe_forgets_zero`, `describe_intercept_variable`, `describe_roundtrip`, `describe_roundtrip_formula`, `describe_roundtrip_text`, `describe_text`, `description_means`, `description_reproduces`, `description_reproduces_text`, `design_accepted`, `design_alone`, `design_constraint`, `design_hypothesis`, `design_term_order`, `design_terms`, `diff_coefficients`, `diff_meaning`, `div_nests`, `drop_again`, `dummy_coefficients`, `dummy_meaning`, `empty_first_term`, `empty_outcome_accepted`, `entry_points`, `equal_objects_order`, `equivalent_formulas`, `eval_normal`, `eval_total`, `evaluation_error_position`, `examined_alone`, `examined_iff`, `examined_independent`, `expanded_lawful`, `explicit_accepted`, `expressed_le`, `expression_semantics`, `factor_env_exact`, `factor_env_snapshot`, `factor_eval_keeps_scopes`, `factor_lawful`, `factor_lookup_order`, `factor_refused_iff`, `factor_value`, `fit_of_formula`, `fitted_unique`, `flatSum_intercept`, `formula_error_message`, `formula_error_position`, `formula_outcome`, `formula_semantics`, `frame_accepted`, `full_isUnit`, `gained_dimension`, `greedy_not_minimal`, `groups_covered_once`, `helmert_coefficients`, `helmert_meaning`, `incremental`, `interact_pairs`, `interaction_built`, `interaction_columns`, `interaction_names`, `intercept_cannot_interact`, `interval_search`, `kept_iff`, `kron_entry`, `law_same_fit`, `law_same_fit_transforms`, `leading_columns_span`, `level_by_position`, `level_by_value`, `levels_boolean`, `levels_chunks_irrelevant`, `levels_chunks_irrelevant_iff`, `levels_declared`, `levels_depend_on_chunks`, `levels_examined`, `levels_nested`, `levels_pandas`, `line_coefficients`, `located_agrees`, `lookup_dict_protocol`, `lookup_forced`, `lookup_formula`, `lost_level`, `makeSubtermInfos_total`, `makeTerm_spec`, `mapping_duplicates_partial`, `mapping_meaning`, `matrices_outcome`, `matrix_alone`, `matrix_sample`, `matrix_shown`, `means_unique`, `memorisedAlike`, `memorize_errors`, `memorize_inside_out`, `memorize_order_irrelevant`, `memorize_passes`, `memorize_protocol`, `memorize_reserved`, `memorized_alike`, `memorized_states`, `message_shows`, `minus_difference`, `minus_plus`, `minus_self`, `missing_documented`, `model_on_data`, `na_action_iff`, `na_string_iff`, `name_alone_iff`, `name_column_crashes`, `names_not_mentionable`, `nan_order_matters`, `nan_string_is_missing`, `natural_row_at_knot`, `natural_row_sums_to_one`, `natural_spline_space`, `natural_two_knots_crash`, `nested_calls`, `nested_designs`, `nested_models`, `nested_sides`, `no_intercept_coefficients`, `no_outcome`, `normalize_spacing`, `one_culprit`, `one_factor_coefficients`, `order_deterministic_iff`, `outcome`, `own_mean_predictions`, `own_terms`, `own_terms_text`, `parallel_coefficients`, `parallel_treatment`, `parse_constraint_iff`, `parse_formula_iff`, `parse_formula_total`, `parse_positions`, `parse_positions_nested`, `pieces_in_order`, `plus_assoc`, `plus_comm`, `plus_self`, `plus_union`, `poly_columns`, `poly_meaning`, `poly_names`, `poly_qr_irrelevant`, `poly_suffixes`, `power_exercise`, `power_is_product`, `power_mul`, `power_power`, `prediction_unique`, `predictions_extend`, `prod_expands`, `quote_of_data`, `quote_value_iff`, `raise_error`, `raise_iff`, `rebuild_dmatrices`, `rebuild_dmatrix`, `recoded_column_space`, `recoded_same_fit`, `recoded_same_regression`, `reduced_isUnit`, `right_side_alone`, `rounded_unique`, `row_order`, `row_tensor_product`, `row_tensor_product_rejects`, `rows_independent`, `same_column_space`, `same_fit`, `same_left`, `same_model`, `same_predictions`, `same_regression`, `same_right`, `same_rows`, `same_run`, `same_run_single`, `same_space`, `same_width`, `sign_after_division`, `simplify_preserves_effects`, `slash_assoc`, `slash_distrib`, `slash_expand`, `slash_two`, `slice_of_integer_partial`, `slice_of_key`, `slice_of_minus_one`, `slice_unknown`, `sortLt_scalar`, `sorted_deterministic`, `sorted_order`, `sorted_tuples_arbitrary`, `spline_chunks`, `spline_knots_computed`, `spline_knots_given`, `standardize_batch`, `standardize_call`, `standardize_chunks_irrelevant`, `standardize_in_formula`, `standardize_orderFree`, `standardized_moments`, `star_assoc`, `star_comm`, `star_expand`, `string_meaning`, `strings_meaning`, `subset_built_alone`, `subset_built_together`, `subset_columns`, `subset_formula`, `subset_formula_refused`, `subset_plain`, `subset_total`, `subset_unknown`, `subsets_in_order`, `subterm_mem`, `sum_coefficients`, `sum_meaning`, `syntax_error_position`, `te_center_columns`, `te_center_loses_columns`, `te_center_space`, `te_center_splines`, `te_chunkFree`, `te_chunks`, `te_orderFree`, `te_space`, `te_splines`, `term_eq_iff`, `term_lawful`, `term_order`, `terms_shown`, `text_chunks`, `text_chunks_one`, `text_complete_cases`, `text_complete_cases_one`, `text_crossed`, `text_fit`, `text_hypothesis`, `text_hypothesis_one`, `text_line`, `text_nested`, `text_nested_one`, `text_outcome`, `text_parallel`, `text_predicts`, `text_predicts_dmatrix`, `text_right_side`, `text_row_order`, `text_row_order_one`, `text_to_matrices`, `text_to_matrix`, `text_treatment`, `tilde_sides`, `tokenizeAt_error_iff`, `tokenize_iff`, `tokenize_increasing`, `tokenize_total`, `training_values`, `treatment_coefficients`, `treatment_meaning`, `two_chunks`, `two_chunks_matrices`, `uniqueify_algebra`, `uniqueify_first`, `uniqueify_spec`, `untokenize_layout`, `untokenize_same_ink`, `untokenize_spaced`, `usual_readable`, `vanishing_meaning`, `vanishing_ways`
- **Quot.sound, propext**: `annotated_tokens_exact`, `blanks_irrelevant`, `capture_depth`, `capture_too_deep`, `center_batch`, `center_call`, `center_chunkFree`, `center_chunks_irrelevant`, `center_in_formula`, `center_orderFree`, `clear_iff`, `clear_keeps_keys`, `code_contrast_matrix_cases`, `constraint_located_agrees`, `disordered_unique`, `env_lawful`, `explicit_matrices`, `get_put`, `grammar_unambiguous`, `inOrder_unique`, `level_unknown`, `line_ends_irrelevant`, `located_evaluation`, `nested_iff_tree`, `ordered_dict`, `ordered_eq`, `ordered_nodup`, `origin_lawful`, `parse_iff_grammar`, `parse_total`, `python_tokenize_iff`, `python_tokenize_total`, `row_meaning`, `set_spec`, `standardize_chunkFree`, `subterm_not_lawful`, `tokenizer_refines`, `tuple_meaning`, `usual_reading_unique`, `vector_valuation`
- **none**: `capture_env`, `clear_twice`
- **propext**: `evalFactor_eq_iff`, `invisible_one_is_visible`, `lookup_make`, `parenthesised_anti_intercept`, `parse_empty_crashes`, `plus_minus_one_keeps_intercept`, `power_illegal`, `pushback_sequence`, `quote_misses_environment`, `row_tensor_product_empty_crashes`, `slash_not_left_distributive`, `slice_of_slice`, `span_spec`, `star_drops_removal`, `stateful_call_ignores_data`, `sum_lawful`, `untokenize_indent_crashes`, `untokenize_leading_blank`, `untokenize_not_injective`, `zero_not_associative`

## 6. Disagreements found between code/documentation and claim

Each is a theorem with a concrete witness.

* C04: two pieces with equal hashes are treated as equal (`redundancy.py:105-106`), so columns can be lost: `collision_loses_columns`.
* C37: the greedy simplification does not always use the smallest number of pieces: `greedy_not_minimal`.
* C06: an empty token sequence is an `IndexError`, not a `PatsyError`: `parse_empty_crashes`.
* C11: `doc/formulas.rst:308-319` lists `x + -1` as equivalent to `x - 1`; the code keeps the intercept: `plus_minus_one_keeps_intercept`.
* C11: `doc/formulas.rst:279` ("exactly as if there is an invisible `1 +`") fails for `-1 + x`: `invisible_one_is_visible`.
* C11: `doc/R-comparison.rst:66-72` says `y ~ (b - 1)` has an intercept; the code gives none: `parenthesised_anti_intercept`.
* C53: `(a - 1) * b` has an intercept although `a * b` is documented as short-hand for `a + b + a:b` (doc/formulas.rst:139) and `(a - 1) + b + (a - 1):b` has none: `star_drops_removal`; `a + (b + 0)` differs from `(a + b) + 0`: `zero_not_associative`.
* C14: the spacing normalisation is not injective, can begin with a blank, and fails on INDENT tokens: `untokenize_not_injective`, `untokenize_leading_blank`, `untokenize_indent_crashes`.  For factor names with a leading blank the hypothesis of C12 on names does not hold.
* C79: `design_info.slice(-1)` is `slice(-1, 0)`, which selects no column instead of the last one: `slice_of_minus_one`.
* C81: if a column is called `1` (as `DesignInfo(["1", "x"])` allows), then in the text `x = 1` the numeral is read as that column: `names_not_mentionable`.
* C80: `center(x)` memorises also the rows that are dropped because another variable is missing, so that the column is not centred in the matrix: `center_sees_dropped_rows`.  (No claim of the documentation is violated.)
* C20: when missing values occur only in terms that were not selected, a subset built alone keeps rows that the full design drops; the theorem is about the same rows.
* C22: a reserved name in a formula raises `NameError` (`eval.py:529` refers to an undefined `token`) instead of `PatsyError`.
* C23: `center()` of boolean data would cast the mean to bool; the dtype is not modelled (the theorems are about exact numbers).
* C24: the levels found depend on how the data is cut into chunks (`[0, 1], [2]`), see the theorems of `Props/Categorical`.
* C25: strings such as "nan" are treated as missing, very large integers raise `OverflowError`, a boolean array without matching levels raises `KeyError`.
* C27: the documentation of `Diff` (`contrasts.py:551-552`) says that the intercept is the mean of the first level; it is the grand mean: `diff_meaning`.  A `Helmert` coefficient is the difference to the mean of the previous levels divided by j + 2: `helmert_meaning`.
* C27: `Poly` centres the user's scores in place (`contrasts.py:271`, `np.asarray` makes no copy); aliasing is not modelled.  The normalisation at `contrasts.py:275` mixes up rows and columns, harmless because q is orthogonal: `poly_columns`.
* C39: `doc/API-reference` promises standard arithmetic; a sign directly after `/` binds looser than the following `*` and `/`, so `x / -2 * 3 = 3` is read as `x / (-(2 * 3)) = 3`: `sign_after_division`.
* C28: division by zero in a constraint is not noticed (NumPy gives nan/inf with a warning; the model has an error of its own); a blank text is an `IndexError`: `blank_constraint_crashes`; the keys 0 and -N of a mapping denote the same column but are not found to be duplicates: `mapping_duplicates_partial`.
* C28: the example `di.linear_constraint([[...]], [...])` in the docstring passes two arguments to a method of one argument (`design_info.py:506-555`).
* C29: the name of a called stateful transform is looked up in the environment only; a function of that name in the data is ignored: `stateful_call_ignores_data`.
* C29: the first stack depth that does not exist gives an `AttributeError` instead of the intended `ValueError` (`eval.py:233-238`): `capture_too_deep`.
* C40: `Q("x")` does not find a variable of the environment, because the environment of a factor is restricted to the names that occur in its code as names: `quote_misses_environment`.
* C71: tuples with incomparable items as levels are ordered by memory address, and the comparison need not be transitive (`util.py:613-617`): `sorted_tuples_arbitrary`.
* C73: `_Subterm.__eq__` compares a subterm with itself (`redundancy.py:106`), so that it breaks the contract with `__hash__`: `subterm_not_lawful`; see C04 for the effect.
* C76: `OrderedDict.clear` of `compat_ordereddict.py:88-98` calls `itervalues`, which Python 3 does not have; the `AttributeError` is caught two lines later, so that the linked list is not cleared: a loop over the cleared dictionary gives all old keys (`clear_keeps_keys`), `items()` raises `KeyError`, and a key that is set again appears twice (`clear_twice`).
* C30: matrices without columns can crash the product with an `IndexError` instead of giving no columns: `row_tensor_product_empty_crashes`.
* C32, C43: `cc` with one or two free knots (`cc(x, df=1)`, `cc(x, df=2)`, or `df=1` with a centering constraint) gives columns that do not sum to one and do not span the constants, because assignments to the corners of the matrices overwrite each other (`mgcv_cubic_splines.py:117-133`): `cyclic_few_knots_sum`, `cyclic_few_knots_miss_constants`.
* C32: `cr` with two knots (`cr(x, df=2)`, the smallest `df` that is accepted) fails with a `ValueError` of NumPy when it is evaluated, because `banded_b` is ragged (`mgcv_cubic_splines.py:47`): `natural_two_knots_crash`.
* C42: `_map_cyclic` assigns to a copy of `x`; if `x` holds integers and the bounds are not integers, the mapped values are truncated: `cyclic_row_of_integers_differs`.
* C33: `cr(x, df=2)` is accepted by `memorize_finish` but cannot be evaluated at any point: `cr_two_columns_crash`.  The documentation of `df` does not exclude it.
* C44: constraints that depend on each other are absorbed as if they were independent, so columns are lost (`mgcv_cubic_splines.py:307-310` drops as many columns as there are constraints): `absorbed_constraints_lose_columns`.
* C34: a factor with no levels makes all columns disappear, so `balanced(a=2, b=0)` is `{}`: `balanced_no_rows`; `demo_data("a", nlevels=0)` is an `OverflowError`: `demo_data_no_levels`.  The documentation of `demo_data` says that names from "a" through "m" are categorical, but "n" is too: `demo_data_n`.
* C47: `design_matrix_builders` with an iterator that yields no chunk at all is an `AssertionError`, not a `PatsyError`: `builders_no_data`.
* C36: a left-hand side without columns (such as an n x 0 array) is accepted by `dmatrix` and rejected by `dmatrices`: `empty_outcome_accepted`.  A data frame with a column `name`, given as a matrix, is a `TypeError` (`util.py:95-97`): `name_column_crashes`.
* C51: inner knots at a bound are accepted.  At the upper bound, all columns are zero for points there (`bs(x, df=4)` for the data 0, 1, 1, 1): `bs_upper_knot`; the same for constant data.  At the lower bound, the column that is left out by default is zero and the others add up to one, so that they are collinear with the intercept: `bs_lower_knot`.
* C52: models that are fine as such are refused because of their names, with a `ValueError` about duplicate or overlapping names: a variable called `Intercept` next to an intercept, `x + x[0]` with a two-column `x` (`ambiguous_names`); levels `1` and `'1'`, a level `intercept` with full-rank Helmert coding (`ambiguous_levels`).
* C55: `memorize_passes_needed` refuses code that uses a reserved name such as `_patsy_stobj0__center__`, but not data with such a variable; in `VarLookupDict([data, transforms])` the data come first, so the variable would hide the object. The theorems assume that there is no such variable.
* C20: the terms of a formula given to `DesignInfo.subset` are found by name, so `~ 0 + x:a` is refused by a design with the term `a:x`, although both are the same term (example after `subset_formula_refused`).  The documentation says that names are compared.
* C56: `te(..., constraints='center')` removes a column even if every function of the tensor product has mean zero already (for instance one centered argument alone); then a function that satisfies the constraint is lost (`te_center_loses_columns`; with floating point numbers, which one is an accident of rounding).
* C58: errors that are not `PatsyError`s although the user's input is to blame: `C(b, levels=["u", "v"])` for a boolean array `b` is a `KeyError` when the matrix is built (`categorical.py:362-363`; the design itself is made without complaint); an integer of 2^1024 or more in categorical data is an `OverflowError` (`math.isnan`); no data is an `AssertionError`; a contrast matrix with the wrong number of rows is a `ValueError`.  See the examples in `Props/Outcome.lean`.
* C62: `levels.sort(key=SortAnythingKey)` (categorical.py:185) cannot sort NaNs, so with `NAAction(NA_types=[])` the levels of `C(x)` with a NaN among the data are in an order that depends on the order of a set: `nan_order_matters`.  Two `LookupFactor`s for the same variable, one of them with `force_categorical`, are different factors with the same name, so a model with both is refused because of duplicate column or term names.  A `LookupFactor` for a variable that does not exist is a plain `KeyError`, not a `PatsyError` (build.py:46-71 does not wrap it).
* C64: in the list of terms of a printed matrix the separator is left out before every term that starts at column 0 (`if span.start != 0`, design_info.py:1248), hence after a first term without columns: `empty_first_term` (`'e' (columns 0:0)'x' (column 0)`).  Small negative numbers are printed as `-0`.
* C65: of equal objects in categorical data (`2` and `2.0`, `True` and `1`) the first one becomes the level and gives the column its name, so that the names depend on the order of the rows: `equal_objects_order` (`a[2]` or `a[2.0]`).
* C66: the sniffer stops at a chunk of zeros and ones, so that other levels in later chunks are lost and those chunks are rejected, although the whole data would be accepted: `chunks_of_zeros` (see also C24).
* C68: `DesignInfo.describe()` omits the `0 +` of a design without an intercept, so that its text means another model (`describe_forgets_zero`; the documentation warns that the text need not be a formula for the same model); a variable named `Intercept` is described as `1` (`describe_intercept_variable`).
