{"id": "C01", "title": "Postfix validity characterises expression trees", "statement": "The public validity check on a flat node list returns true exactly when the list is the post-order serialisation of some expression tree in which every operator has at least one child and exactly as many children as its arity; that tree is unique.", "quantifier": "every finite node list (any length, any arities, any indices)", "why_tests_cant": "The set of node lists is infinite; tests sample a handful of shapes and cannot exclude a malformed list being accepted or a valid one rejected.", "anchors": ["dynamic_expressions/src/node_utils.rs: is_valid_postfix"]}
{"id": "C02", "title": "Structural measures agree with the tree", "statement": "For every serialised tree, the reported depth is the height of the tree, the node/constant/variable/operator counts are those of the tree, the subtree-size table gives at each position the size of the subtree rooted there, and the subtree range of a position is exactly the slice serialising that subtree; on lists that do not reduce to one root the functions panic instead of returning a number.", "quantifier": "every expression tree and every position in it; every malformed list for the panic part", "why_tests_cant": "Needs induction over tree structure; deep or wide trees are never exhaustively tested.", "anchors": ["dynamic_expressions/src/node_utils.rs: tree_mapreduce, count_depth, count_nodes, count_constant_nodes, count_variable_nodes, count_operator_nodes, max_arity, subtree_sizes, subtree_range"]}
{"id": "C03", "title": "Array evaluation computes the recursive meaning of the expression", "statement": "Evaluating an expression on a data matrix returns, at every row, exactly (bit for bit) the value obtained by recursively applying the operators of the tree to the row's features and the expression's constants - independent of scratch-buffer contents left by earlier calls and of register (slot) reuse in the compiled plan.", "quantifier": "every well-formed expression, every number of rows and features, every data set, every scalar type and operator implementation, every prior scratch contents", "why_tests_cant": "Slot allocation and reuse interact with tree shape; correctness must hold for all shapes and all stale buffers.", "anchors": ["dynamic_expressions/src/compile.rs: compile_plan", "dynamic_expressions/src/evaluate.rs: eval_tree_array, eval_tree_array_into, eval_plan_array_into, eval_nary, resolve_val_src"]}
{"id": "C04", "title": "Completion flag means every operator result was finite", "statement": "With finite checking on, the returned flag is true exactly when every operator application in the tree produced a finite value on every row (and a bare-constant root is finite); the flag does not depend on whether early exit is enabled; with finite checking off it is always true; whenever the flag is true the full correct output has been written, also under early exit.", "quantifier": "every well-formed expression, data set, scalar type, option combination", "why_tests_cant": "A non-finite intermediate value can occur at any node/row combination and be masked later by another operator.", "anchors": ["dynamic_expressions/src/evaluate.rs: EvalOptions, eval_plan_array_into, eval_nary, eval_tree_array"]}
{"id": "C05", "title": "Compiled plans are safe", "statement": "Compiling any well-formed expression within the index limits never panics, and in the resulting plan no instruction reads the register it writes, every register is below the advertised register count, every register read was written by an earlier instruction and not overwritten since, instruction arities equal operator arities, and the register count never exceeds the number of operator nodes.", "quantifier": "every expression tree with indices in range", "why_tests_cant": "The aliasing guard inside the evaluator panics (or would read stale data) only for particular tree shapes; must be excluded for all of them.", "anchors": ["dynamic_expressions/src/compile.rs: compile_plan", "dynamic_expressions/src/evaluate.rs: resolve_val_src (panic 'source references dst slot')"]}
{"id": "C06", "title": "Reusing an evaluation context never changes results", "statement": "Evaluating any sequence of expressions through one context gives for each of them the same result as a fresh context, provided no two different expressions of equal length in the sequence have the same 64-bit node hash. The exception is real and is proved as a counterexample: for every hash function there are two expressions for which the reused context returns the value of the wrong one.", "quantifier": "every history of (expression, data set, options) evaluated through the same context", "why_tests_cant": "The cached plan is keyed by node count, constant count, feature count and a 64-bit hash; only a quantification over all histories exposes stale-plan reuse on a hash collision.", "anchors": ["dynamic_expressions/src/evaluate.rs: EvalContext::setup, EvalContext::needs_recompile", "dynamic_expressions/src/compile.rs: build_node_hash"]}
{"id": "C07", "title": "Directional derivative is the chain rule", "statement": "The forward derivative evaluation returns, at every row, the expression's value together with the value obtained by the multivariate chain rule from the operators' declared partial derivatives, seeded with 1 at the chosen feature and 0 elsewhere. In floating point, where zero times infinity is NaN, this holds to the letter, in the scalars' own arithmetic and order of operations, with one shortcut: an operator of one argument applied to a feature or constant of derivative zero has derivative zero, and its partial is not used.", "quantifier": "every well-formed expression, direction, data set, scalar type, operator partials, prior scratch contents", "why_tests_cant": "Tree shapes, slot reuse and the constant/variable argument classes multiply beyond what tests can enumerate.", "anchors": ["dynamic_expressions/src/evaluate_derivative.rs: eval_diff_tree_array", "dynamic_expressions/src/evaluate.rs: diff_nary"]}
{"id": "C08", "title": "Gradient agrees with directional derivatives", "statement": "Component d of the gradient evaluation (with respect to features, or to constants) equals the chain-rule derivative in direction d, for all directions, rows and argument classes, including the shortcuts that skip all-zero gradients: always where products with zero are zero (the real numbers). In floating point it is the chain rule in the scalars' own arithmetic and order of operations, with the shortcut that an operator of one or two arguments, all features or constants of derivative zero, has derivative zero. It then still agrees with the directional derivative, unless the expression contains an operator of two such arguments. The exception is real: there is an expression of finite value for which both evaluators report success and the directional derivative is NaN while the gradient component is 0 (proved).", "quantifier": "every well-formed expression with at least one row, gradient mode (features or constants), data, every scalar type (no law of arithmetic assumed), operator partials, prior scratch contents", "why_tests_cant": "The specialised unary/binary/n-ary gradient loops have many branches keyed on zero/constant/slot argument kinds.", "anchors": ["dynamic_expressions/src/evaluate_derivative.rs: eval_grad_tree_array", "dynamic_expressions/src/evaluate.rs: grad_nary, grad_unary_loop, grad_binary_loop"]}
{"id": "C09", "title": "Computed derivatives are true derivatives over the reals", "statement": "Over the real numbers, at every row where each operator application is inside its domain of differentiability, the computed derivative is the mathematical derivative of the expression's value as a function of the chosen feature (or constant).", "quantifier": "every expression over differentiable operators, every row, every direction", "why_tests_cant": "Finite-difference tests are approximate and pointwise.", "anchors": ["dynamic_expressions/src/evaluate_derivative.rs", "dynamic_expressions/src/operator_enum.rs: builtin partials"]}
{"id": "C10", "title": "Built-in partial derivatives are correct", "statement": "For every built-in operator, the declared partial derivative with respect to each argument is the mathematical partial derivative of the operator's value at every real point of its open domain (away from the kinks of abs, sign, min, max, clamp). The one exception, proved as a counterexample: clamp(x, lo, hi) with the inverted range hi < x < lo declares partial 1 in hi where the true one is 0.", "quantifier": "every built-in operator, every argument position, every real point in the domain", "why_tests_cant": "Numerical tests sample points and use tolerances.", "anchors": ["dynamic_expressions/src/operator_enum.rs: builtin unary/binary/ternary ops"]}
{"id": "C11", "title": "Constants round-trip and only constants change", "statement": "Reading the constants and writing them back leaves the expression unchanged; writing any vector of the right length and reading returns that vector, changes no node, and evaluation afterwards uses exactly the new values; writing a vector of the wrong length panics.", "quantifier": "every expression and every vector of replacement constants", "why_tests_cant": "Ranges over all expressions and all vectors.", "anchors": ["dynamic_expressions/src/utils.rs: get_scalar_constants, set_scalar_constants"]}
{"id": "C12", "title": "Constant compression preserves meaning", "statement": "Compressing constants preserves the value of the expression on every row, keeps the node shape, leaves no unused constant, numbers constants in order of first use, reports a change exactly when the representation changed, and is idempotent.", "quantifier": "every well-formed expression with fewer than 65535 used constants", "why_tests_cant": "Sharing patterns between constant references are unbounded.", "anchors": ["dynamic_expressions/src/utils.rs: compress_constants"]}
{"id": "C13", "title": "Constant folding preserves evaluation exactly", "statement": "The constant-folding simplification yields an expression whose value is bit-for-bit identical to the original on every row and for every scalar type, and folding never introduces a non-finite constant.", "quantifier": "every well-formed expression, every scalar type and operator implementation", "why_tests_cant": "Folding at any depth and any mixture of finite/non-finite intermediate values.", "anchors": ["dynamic_expressions/src/simplify.rs: simplify_tree_in_place"]}
{"id": "C14", "title": "Operator combination preserves the mathematical value", "statement": "Combining constants across nested +, * and - yields an expression with the same value in exact arithmetic, for every operator set and every expression in which the id of the subtraction operator is used only by binary nodes. The exception is real and is proved as a counterexample: the rewrite for - does not look at the arity, so with the preset operators 1 - atanh(x) simplifies to 2 - x.", "quantifier": "every well-formed expression, every operator set (with arbitrary id assignment), every input row", "why_tests_cant": "The rewrite patterns nest; a rule that only misfires when a non-binary operator shares the subtraction id is not reached by tests on a fixed operator set.", "anchors": ["dynamic_expressions/src/simplify.rs: combine_node, combine_operators_in_place_with_cfg"]}
{"id": "C15", "title": "Simplification never grows an expression and keeps it well-formed", "statement": "After simplification the expression is still a valid well-formed expression, has at most as many nodes as before and at most the same depth, refers only to existing constants, and uses only features that already occurred.", "quantifier": "every well-formed expression and operator set", "why_tests_cant": "Rewrite chains are unbounded.", "anchors": ["dynamic_expressions/src/simplify.rs: simplify_in_place, simplify_tree_in_place, combine_operators_in_place_with_cfg"]}
{"id": "C16", "title": "Algebraic composition builds the expression it denotes", "statement": "Applying an operator to expressions yields an expression whose value on every row is the operator applied to the arguments' values on that row, with constants kept separate; it panics only when index limits would overflow.", "quantifier": "every operator, every tuple of well-formed expressions", "why_tests_cant": "Constant-index offsets depend on all argument sizes.", "anchors": ["dynamic_expressions/src/expression_algebra.rs: __apply_postfix"]}
{"id": "C17", "title": "Printed formulas are unambiguous", "statement": "The printed form of an expression has balanced parentheses, parses back to the same tree, and stripping outer parentheses removes only a matching pair.", "quantifier": "every expression tree", "why_tests_cant": "Precedence/parenthesis errors appear only for particular nestings.", "anchors": ["dynamic_expressions/src/strings.rs: string_tree, strip_outer_parens"]}
{"id": "C18", "title": "Operator lookup by token is sound and complete", "statement": "Looking up a token returns an operator exactly when that operator is the only one matching the token; unknown tokens give the unknown error, tokens matched by several operators give the ambiguous error; with an arity, only operators of that arity are considered.", "quantifier": "every operator registry and every token", "why_tests_cant": "Ranges over registries and tokens.", "anchors": ["dynamic_expressions/src/traits.rs: OpRegistry lookup, lookup_with_arity, matches_token"]}
{"id": "C19", "title": "Mutations preserve well-formedness", "statement": "Every mutation (constant, operator, feature, swap, rotate, insert, prepend, append, delete, fresh tree) maps a well-formed expression to a well-formed one using only the configured operators and features, whatever the random choices.", "quantifier": "every well-formed expression and every sequence of random draws", "why_tests_cant": "Random choices and tree shapes are unbounded; a single invalid postfix would crash a long search.", "anchors": ["symbolic_regression/src/mutation_functions.rs"]}
{"id": "C20", "title": "Mutations change size as documented", "statement": "Adding a node adds exactly the chosen operator's arity nodes; deleting an operator strictly shrinks the tree and keeps the subtree of one of its children; constant/operator/feature/swap/rotate mutations keep the node count, and random trees respect the requested size. On an expression without nodes every mutation leaves it as it is and reports failure. The exception is real: rotation panics there (proved).", "quantifier": "every well-formed expression and every random stream", "why_tests_cant": "Size accounting has to hold for every shape and choice or the size cap is silently violated.", "anchors": ["symbolic_regression/src/mutation_functions.rs: insert_random_op_in_place, prepend_random_op_in_place, append_random_op_in_place, delete_random_op_in_place, random_expr, random_expr_append_ops"]}
{"id": "C21", "title": "Rotation and operand swap only rearrange", "statement": "Rotating a tree or swapping operands keeps the multiset of nodes and the constants, and yields again a valid tree; rotation performs a genuine left/right rotation: the pivot child becomes the root of the rotated region and one of its children becomes a child of the old root.", "quantifier": "every well-formed expression, every random stream", "why_tests_cant": "Slice arithmetic over postfix arrays must be right for all shapes.", "anchors": ["symbolic_regression/src/mutation_functions.rs: rotate_tree_in_place, swap_operands_in_place"]}
{"id": "C22", "title": "Crossover exchanges exactly two subtrees", "statement": "Crossover yields two well-formed expressions, each equal to its parent with one subtree replaced by a subtree of the other parent evaluated with its own constants; total node count is conserved and parents are unchanged.", "quantifier": "every pair of well-formed parents, every random stream", "why_tests_cant": "Constant re-indexing errors only show for particular sharing patterns.", "anchors": ["symbolic_regression/src/mutation_functions.rs: crossover_trees, remap_subtree_consts"]}
{"id": "C23", "title": "Constraint check accepts exactly the allowed expressions", "statement": "An expression is accepted exactly when its complexity is at most the current size limit, its depth at most the depth limit, every operator argument's complexity is within that operator's argument limit, and every nested-operator bound holds; in particular skipping the depth computation for default complexities is sound, and raising a limit never rejects an accepted expression.", "quantifier": "every expression, limits and constraint tables", "why_tests_cant": "The check is one fused pass with shortcuts; equivalence to the specification needs all trees.", "anchors": ["symbolic_regression/src/check_constraints.rs: check_constraints, needs_depth_check"]}
{"id": "C24", "title": "Complexity equals the documented weighted node count", "statement": "The complexity of an expression is the sum over its nodes of the configured weights (default 1, per-variable, per-constant, per-operator overrides), capped by saturation; with default settings it is the node count.", "quantifier": "every expression and complexity configuration", "why_tests_cant": "All trees and weight tables.", "anchors": ["symbolic_regression/src/complexity.rs: compute_complexity"]}
{"id": "C25", "title": "Hall of fame keeps the best expression of each complexity", "statement": "After any sequence of offered members, the entry of each complexity is a member that was offered with that complexity, satisfied the constraints, and has the least cost among all offered feasible members of that complexity; its cost never increases; members that violate constraints or are out of range never enter.", "quantifier": "every finite sequence of offered members with comparable (non-NaN) costs", "why_tests_cant": "History-dependent invariant over unbounded sequences.", "anchors": ["symbolic_regression/src/hall_of_fame.rs: HallOfFame::new, consider"]}
{"id": "C26", "title": "Reported Pareto front is the true front", "statement": "The reported front is strictly increasing in complexity and strictly decreasing in loss, contains only hall-of-fame entries, no member of it is dominated by any hall-of-fame entry, and every finite-loss entry of the hall is dominated-or-equalled by a front member.", "quantifier": "every hall of fame state", "why_tests_cant": "All possible loss patterns including ties, infinities and NaN.", "anchors": ["symbolic_regression/src/hall_of_fame.rs: pareto_front"]}
{"id": "C27", "title": "NaN costs and hall-of-fame slots", "statement": "A member with a NaN cost never displaces a hall-of-fame entry with a comparable cost: if the first feasible member offered with complexity c has a comparable cost, the entry of complexity c stays comparable and is not above the cost of any comparable feasible member of that complexity offered. The exception is real: if the first feasible member of complexity c has a NaN cost, it keeps the slot for ever, whatever is offered afterwards (proved for every later history).", "quantifier": "every sequence of offered members, including NaN costs", "why_tests_cant": "Comparison with NaN is always false, so a NaN incumbent can never be displaced; needs the history quantifier.", "anchors": ["symbolic_regression/src/hall_of_fame.rs: consider", "symbolic_regression/src/pop_member.rs: PopMember::evaluate"]}
{"id": "C28", "title": "Complexity-frequency statistics stay in range", "statement": "After any sequence of updates, window moves and normalisations recording fewer than 2^53 sizes, the table keeps its length and every frequency is a finite number of at least one and at most one plus the number of recorded sizes, in f64 arithmetic; a looked-up frequency is never below the 1e-6 floor. In exact arithmetic: recording a size adds one to that entry only, the normalised frequencies are positive, proportional to the frequencies and sum to one, a window move never raises an entry nor lowers it below one, moves the total towards the window without crossing it, and for whole-number tables of at most 1000 entries brings it exactly to the window (or to the all-ones total if that is larger). In f64, with at most 2^51 sizes, after any such history each normalised frequency is within the relative amount (m+1)/2^52 of its exact share (m the number of sizes), so they add up to one up to that amount.", "quantifier": "every sequence of updates, window moves and normalisations", "why_tests_cant": "Iterated floating loops over unbounded histories.", "anchors": ["symbolic_regression/src/adaptive_parsimony.rs: RunningSearchStatistics"]}
{"id": "C29", "title": "Population replacement evicts the oldest", "statement": "Replacing the oldest (or the two oldest) keeps the population size, removes exactly the member(s) with the smallest birth, and leaves all other members untouched.", "quantifier": "every non-empty population and newcomer(s)", "why_tests_cant": "Ranges over all populations incl. ties.", "anchors": ["symbolic_regression/src/population.rs: oldest_index, two_oldest_indices, replace_oldest, replace_two_oldest"]}
{"id": "C30", "title": "Migration preserves population size and provenance", "statement": "Migration keeps the population size, overwrites only the randomly selected positions, each by a copy of one of the migrants (same expression, loss, cost) with a fresh id and birth and recorded parent; it never replaces more members than min(population, migrants), and does nothing when no migrants exist.", "quantifier": "every population, migrant pool, fraction, random stream", "why_tests_cant": "Random choices and sizes unbounded.", "anchors": ["symbolic_regression/src/migration.rs: migrate_into, best_sub_pop"]}
{"id": "C31", "title": "Tournament selection picks from a distinct sample by adjusted cost", "statement": "The tournament samples min(n, size) distinct members; if the adjusted costs (cost times exp(scaling * frequency of the complexity) when enabled) are comparable, the winner at drawn place k is a sampled member with at most k sampled members strictly cheaper and more than k not dearer; k is 0 for probability one, otherwise drawn with geometric weights p(1-p)^k; with probability one and a tournament as large as the population the winner has the least adjusted cost of all. No panic for positive p and comparable adjusted costs. The exception is real: when exp overflows, a member of cost zero has a NaN adjusted cost and can lose to a worse one.", "quantifier": "every population, parsimony statistics, random stream", "why_tests_cant": "All orderings/ties and streams.", "anchors": ["symbolic_regression/src/selection.rs: best_of_sample, sample_tournament_place, sample_indices"]}
{"id": "C32", "title": "Weighted choice respects zero weights", "statement": "Weighted index sampling returns an index in range which has positive weight unless it is the last index. In exact arithmetic index i is returned exactly for the uniform draws in an interval of length weight_i / total, so never an index of zero weight, and every index of positive weight is reached by some draw. The exception is real: in f64 arithmetic a draw can return a last index of weight zero (proved with binary64 rounding).", "quantifier": "every weight vector with positive finite sum, every uniform draw", "why_tests_cant": "Continuous range of draws and arbitrary weight vectors.", "anchors": ["symbolic_regression/src/selection.rs: weighted_index", "symbolic_regression/src/mutate.rs: sample_mutation"]}
{"id": "C33", "title": "Shuffling and index sampling are unbiased in support", "statement": "Shuffling returns a permutation of its input, every permutation is reachable by some random stream; index sampling without replacement returns min(k,n) distinct in-range indices.", "quantifier": "every list, every random stream", "why_tests_cant": "All lengths and streams.", "anchors": ["symbolic_regression/src/random.rs: shuffle", "symbolic_regression/src/selection.rs: sample_indices"]}
{"id": "C34", "title": "Mutation weight conditioning never enables an impossible mutation", "statement": "Conditioning the mutation weights for a member changes each weight in a precisely determined way: a weight is kept, set to zero, or (constant weight of a non-leaf expression) scaled by min(number of constants, 8)/8, never raised. Mutations that cannot apply have weight zero: operator change and deletion on a leaf, operand swap without a binary operator, constant mutation and optimisation without constants, feature change on a constant or with one feature, growth at the size limit, simplification or optimisation when switched off; and the mutations so disabled really do nothing if run. The exceptions are real: for a leaf the conditioning returns early, so the size limit, the single-feature test and the optimiser switch are ignored there, and tree rotation is never disabled although it always fails on a leaf (both proved). The kind that is then drawn has a positive weight of its own, and every kind of positive weight can be drawn; the one exception, also real in f64 (proved), is that the last kind in the table, optimisation, is drawn at weight zero when the cumulated weights round below the total.", "quantifier": "every weight vector, expression, size limit", "why_tests_cant": "All expression/limit combinations.", "anchors": ["symbolic_regression/src/mutate.rs: condition_mutation_weights"]}
{"id": "C35", "title": "New generations respect the constraints", "statement": "For every random stream, temperature and kind of mutation, one generation from a well-formed member returns (as long as some conditioned weight is positive) a well-formed child with its own evaluation plan, a fresh id and birth number and the parent's id; an accepted child satisfies the constraints at the current size limit and carries its own complexity, and carries its own finite loss and cost on the data set unless it is the simplified parent, which keeps the parent's loss; on failure or rejection the child carries the parent's expression, complexity, loss and cost; so children of feasible parents are feasible. Crossover returns two such children or, after ten infeasible tries, the parents unchanged. The exception is real: when conditioning leaves only zero weights, every generation panics (proved).", "quantifier": "every parent, random stream, objective, annealing temperature, number of attempts", "why_tests_cant": "Ten-attempt retry loop with ten mutation kinds.", "anchors": ["symbolic_regression/src/mutate.rs: next_generation, crossover_generation"]}
{"id": "C36", "title": "Evolution keeps the population size and its feasibility", "statement": "A regularised-evolution cycle of ceil(population size / tournament size) steps is a sequence of moves, each of which leaves the population alone (only after a failure, when failures are skipped), replaces an oldest member by a child of a member, or replaces the two oldest by two children; so the number of members is kept, all members stay well formed and, if all were feasible, feasible, for every number of cycles, and the best-seen archive of an iteration consists of the start population and what the population was after each cycle. The exception is real: with tournament size 0 the number of steps is the largest machine integer (proved).", "quantifier": "every population, random stream, number of cycles", "why_tests_cant": "Invariant over unbounded histories.", "anchors": ["symbolic_regression/src/regularized_evolution.rs: reg_evol_cycle", "symbolic_regression/src/single_iteration.rs: s_r_cycle"]}
{"id": "C37", "title": "Constant optimisation never makes a member worse", "statement": "After optimising constants on a data set, the member's node structure, identity and plan are unchanged; if an improvement is reported, the new constants have a finite loss on that data set, strictly below the loss of the old constants on it, loss, cost and complexity are those of the new constants, and the member takes the next birth number; otherwise the member is exactly as before (constants, loss, cost, birth) and no birth number is used. It never panics and uses a bounded number of evaluations.", "quantifier": "every member, dataset, objective function, optimiser behaviour, random restarts", "why_tests_cant": "Depends on all objective landscapes incl. non-finite values.", "anchors": ["symbolic_regression/src/constant_optimization.rs: optimize_constants"]}
{"id": "C38", "title": "Minimisers return the objective at the returned point, never above the start, within the call budget", "statement": "The line search only returns points x+a*s with a>=0 that meet the sufficient-decrease condition, and the steps it tries are fixed: the requested step, reduced so that no coordinate moves by more than the maximal step, is halved (fewer than a fixed number of times) only while the objective has no finite value there; from then on every step with insufficient decrease, and no other, is replaced by a positive one between rho_lo and rho_hi times it, so the step returned is the first with sufficient decrease. In exact arithmetic that replacement is the minimum of the parabola through the value and slope at 0 and the value at the step, from the second reduction on (order 3) the local minimum of the cubic that also has the value at the previous step (its inflection point if there is none), brought between those two bounds. For every objective that gives the same value with and without gradient, a result of BFGS, or of Newton with at least one iteration, reports the finite objective value at the returned point, not above the value at the start (Newton with zero iterations reports infinity at the start). The number of objective calls is bounded by the iteration limits, and by the call limit plus one (BFGS) or plus two (Newton), and no run panics. The exception is real: when the call limit is reached or the objective fails inside a line search the minimiser returns nothing, even after it had found a lower point (proved).", "quantifier": "every objective function, start point and options", "why_tests_cant": "Arbitrary objectives.", "anchors": ["symbolic_regression/src/optim.rs: backtracking_linesearch, bfgs_minimize, newton_1d_minimize"]}
{"id": "C39", "title": "Losses are non-negative and vanish on perfect predictions", "statement": "With valid parameters (Huber delta >= 0, p > 0, 0 <= tau <= 1, eps >= 0) and non-negative weights, no built-in loss is ever negative and every built-in loss of a perfect prediction is exactly zero, however the arithmetic rounds; computing a loss fails only when vector lengths differ. In exact arithmetic each loss is its textbook formula, and mean losses are the (weighted) averages of the pointwise losses, hence between the smallest and largest of them. A loss is selected by its documented names only, up to letter case and surrounding white space, with the documented default parameters (Huber delta 1, p 2, tau 1/2, eps 1/10).", "quantifier": "every prediction, target and weight vector", "why_tests_cant": "Continuous domain.", "anchors": ["symbolic_regression/src/loss_functions.rs"]}
{"id": "C40", "title": "A zero loss certifies a fit", "statement": "In exact arithmetic, if the mean squared loss reported is zero then predictions equal the targets on every row (unweighted) or on every row with positive weight (non-negative weights with positive sum). The exceptions are real: with all-zero weights every mean loss of every prediction is zero; the epsilon-insensitive loss of NaN targets is zero; in f64 tiny residuals square to zero (each proved).", "quantifier": "every prediction, target and non-negative weight vector", "why_tests_cant": "Needs all weight vectors including degenerate ones.", "anchors": ["symbolic_regression/src/loss_functions.rs: MeanLoss"]}
{"id": "C41", "title": "Cost is loss over baseline plus parsimony", "statement": "Cost equals loss divided by max(baseline,0.01) (0.01 when there is no usable baseline) plus parsimony times complexity, so it is monotone in loss and, for non-negative parsimony, in complexity, however the arithmetic rounds, and finite for finite loss in exact arithmetic; a failed or non-finite evaluation yields infinite loss and cost. The exception is real: in f64 the cost of a finite loss can overflow to infinity (proved).", "quantifier": "every loss, baseline, complexity, parsimony", "why_tests_cant": "Continuous domain and degenerate baselines.", "anchors": ["symbolic_regression/src/loss_functions.rs: loss_to_cost", "symbolic_regression/src/pop_member.rs: PopMember::evaluate"]}
{"id": "C42", "title": "Mini-batches consist of real data rows", "statement": "With batching on, drawing the data set of a phase never panics (given at least one row); the batch has the configured number of rows (at least one), every row of it is a row of the full data set with all its features, its own target and its own weight, and it carries the full data set's baseline; every choice of rows, with repetitions, is drawn for some random stream.", "quantifier": "every data set, batch size, random stream", "why_tests_cant": "All streams.", "anchors": ["symbolic_regression/src/dataset.rs: make_batch_buffer, resample_from"]}
{"id": "C43", "title": "Warm-up size limit is monotone and bounded", "statement": "In the code's f32 arithmetic, for every search of up to 2^64 cycles and every maxsize from 3 to 2^23, the size limit of a cycle is between 3 and maxsize, never decreases as cycles complete, is 3 in the first cycle when warm-up is on, and equals maxsize once the elapsed fraction passes the warm-up fraction and always when warm-up is disabled (zero, negative or NaN fraction). The exception is real: with maxsize below 3 and warm-up on, the computation of the first limit underflows and panics (proved).", "quantifier": "every maxsize, warm-up fraction, cycle count", "why_tests_cant": "Integer/floating boundary cases for every configuration.", "anchors": ["symbolic_regression/src/warmup.rs: get_cur_maxsize"]}
{"id": "C44", "title": "Parallel search dispatches every population exactly once per iteration", "statement": "Under every completion order and number of workers, each population is evolved exactly once per iteration, at most n_workers tasks are in flight, no population is lost or duplicated, and the search terminates with niterations x populations completed cycles.", "quantifier": "every schedule of task completions, every number of workers, populations and iterations", "why_tests_cant": "Schedules are combinatorially many.", "anchors": ["symbolic_regression/src/search_utils.rs: run_iteration_phase, equation_search_parallel, run_scoped_search"]}
{"id": "C45", "title": "Stepping is compositional", "statement": "Running the step API with budgets a then b leaves the engine in the same state as one step with a+b; step returns the number of cycles completed, and never exceeds the budget or the remaining work; any partition of the budget up to the total finishes the same search.", "quantifier": "every engine state and every sequence of budgets", "why_tests_cant": "All partitions of the work.", "anchors": ["symbolic_regression/src/search_utils.rs: SearchEngine::step, step_one_cycle, run_to_completion, is_finished"]}
{"id": "C46", "title": "Search progress is monotone under every schedule", "statement": "In every execution, for each complexity the hall-of-fame cost never increases, the reported best loss never increases, and the evaluation counter never decreases, whatever order results arrive in.", "quantifier": "every schedule and every result stream", "why_tests_cant": "History and schedule quantifier.", "anchors": ["symbolic_regression/src/search_utils.rs: apply_task_result"]}
{"id": "C47", "title": "One worker equals sequential execution", "statement": "The multi-worker driver run with a single worker goes through the same sequence of tasks and produces the same final result as the step-wise engine.", "quantifier": "every configuration and every task behaviour", "why_tests_cant": "Two separately written drivers must agree on all inputs.", "anchors": ["symbolic_regression/src/search_utils.rs: equation_search_parallel, SearchEngine"]}
{"id": "C48", "title": "The reported best is scored exactly and never beaten by a returned feasible member", "statement": "At every point of a search (either driver, every schedule) the reported best carries the exact loss, cost and complexity of its own expression on the data; its loss is at most that of every constraint-satisfying initial member and of every constraint-satisfying member of every population returned so far; and it satisfies the constraints itself unless it is the fallback chosen because no initial member did. Two exceptions are real (proved): a hall-of-fame entry can have a strictly smaller loss than the reported best, and when the fallback violates the constraints it can stay the reported best although constraint-satisfying members were found.", "quantifier": "every search execution", "why_tests_cant": "Depends on initial populations with no feasible member and on results arriving later.", "anchors": ["symbolic_regression/src/search_utils.rs: init_populations, apply_task_result"]}
{"id": "C49", "title": "A panicking task hangs the multi-worker search (it should propagate)", "statement": "If no task panics and the driver itself does not, every maximal run of the multi-worker search returns. The exception is real (proved): once a task has panicked, the multi-worker search can never return under any schedule: it ends up waiting for a result that no task will deliver, instead of propagating the panic (unless the driver itself panics first).", "quantifier": "every schedule in which some task panics", "why_tests_cant": "Deadlock on a crash point; needs the schedule quantifier.", "anchors": ["symbolic_regression/src/search_utils.rs: run_scoped_search"]}
{"id": "C50", "title": "Member identities are unique", "statement": "In every state of a search (either driver, every schedule) the ids in population i lie between i*2^32 and the population's next id, and, with the default of skipping failed mutations, are pairwise distinct; so, while no population has used up 2^32 ids, members at different places of the populations carry different ids. Two exceptions are real (proved): when failed mutations are not skipped a failed crossover stores its parents a second time, so one population can hold two members with one id; and the hall of fame can hold two different expressions under one id.", "quantifier": "every search execution", "why_tests_cant": "Unbounded histories.", "anchors": ["symbolic_regression/src/search_utils.rs: init_populations", "symbolic_regression/src/mutate.rs: next_generation, crossover_generation", "symbolic_regression/src/migration.rs: migrate_into"]}
{"id": "C51", "title": "Train/validation split partitions the rows", "statement": "The web API's split returns disjoint train and validation index lists that together are a permutation of all rows; the number of validation rows is the rounded product of the row count and the fraction (clamped to [0, 0.9]), up to the error of f64; with 6 or more rows some training row is left; and the two data sets consist of exactly those rows of features, target and weights. The exception is real: with 1 to 5 rows and a fraction of 0.9 or more no training row is left (proved).", "quantifier": "every number of rows, validation fraction (NaN and infinities included), random stream and data set", "why_tests_cant": "Rounding at small n for all fractions.", "anchors": ["web/wasm/src/lib.rs: make_split_indices, select_rows"]}
{"id": "C52", "title": "Operator sets reject duplicates and out-of-range arities", "statement": "Building an operator set from names succeeds exactly when every name resolves uniquely to an operator of the allowed arity and no operator is named twice; the resulting set contains exactly those operators, and sampling from it returns only members of it, each reachable.", "quantifier": "every name list, registry and random stream", "why_tests_cant": "All name combinations.", "anchors": ["symbolic_regression/src/operators.rs: from_names, from_names_by_arity, sample_arity, sample_op"]}
{"id": "C53", "title": "Constant mutation perturbs exactly one constant as configured", "statement": "A constant mutation fails exactly on expressions without constants; otherwise it multiplies exactly one constant leaf's value by a factor whose magnitude is m or 1/m with 1 <= m <= 1.1 + perturbation_factor*max(temperature,0), leaving the nodes and other constants unchanged. The sign is flipped exactly when the uniform draw exceeds the configured probability_negate_constant, i.e. with probability 1-p (the option has the opposite of its documented effect; proved).", "quantifier": "every expression, temperature, configured probability and random draw", "why_tests_cant": "Probability direction can only be seen by quantifying over draws.", "anchors": ["symbolic_regression/src/mutation_functions.rs: mutate_constant_in_place"]}
{"id": "C54", "title": "Progress output shows every equation completely", "statement": "Wrapping an equation for the terminal never panics and loses no character: the lines are the text cut at character boundaries into non-empty pieces, all but the last followed by '...', each of at most max(width-1-left-3, 10) bytes, and a piece ends only where the next character does not fit any more. In the printed hall of fame (width at least 80, which the code enforces) every member of the front has its row, the row shows the equation completely, cutting to the width removes nothing, and every line is shorter than the width. For any other width each printed line is the complete line cut to width-1 characters.", "quantifier": "every text (any Unicode characters), every terminal width, every number of rows", "why_tests_cant": "All widths and strings.", "anchors": ["symbolic_regression/src/progress_bars.rs: wrap_equation, truncate_to_width"]}
{"id": "C55", "title": "A member's loss is the loss of its expression", "statement": "After evaluating a member on a data set, its loss is exactly the configured loss of the expression's predictions (its mathematical value row by row) against the targets and weights, and its cost the cost formula of that loss and its complexity; if the expression has a non-finite value on some row or the loss is not finite, loss and cost are infinite and the evaluation is reported as failed. The complexity is always recomputed.", "quantifier": "every expression, data set, loss, options", "why_tests_cant": "ranges over all expressions, data and configurations", "anchors": ["symbolic_regression/src/pop_member.rs: PopMember::evaluate", "symbolic_regression/src/loss_functions.rs"]}
{"id": "C56", "title": "Loss gradients are true derivatives", "statement": "Wherever a built-in loss is differentiable, the vector it reports as its derivative with respect to the predictions is the true derivative: contracted with the derivatives of the predictions with respect to any parameter it gives the derivative of the averaged loss with respect to that parameter (exact arithmetic; weighted and unweighted, root mean square included wherever the error is positive). Hence the gradient handed to the constant optimiser is the true gradient of the loss with respect to the constants.", "quantifier": "every built-in loss and parameter, prediction, target and weight vector, differentiable dependence of the predictions on a parameter", "why_tests_cant": "derivatives are limits; must hold at every point", "anchors": ["symbolic_regression/src/loss_functions.rs: point_dloss_dyhat, dloss_dyhat", "symbolic_regression/src/constant_optimization.rs"]}
{"id": "C57", "title": "Mini-batching needs an evaluator of the batch size", "statement": "Evaluating a member panics unless the prediction buffer has exactly as many entries as the data set has rows. With mini-batches of a size other than the number of rows, an evolution phase therefore either panics or has evaluated no expression at all: it counts no evaluation and every loss in the population was there before; a whole search with batches of one row is set up and panics in its first step (proved), while it runs when the batch size is the number of rows.", "quantifier": "all data sets, batch sizes different from the number of rows, populations and random streams", "why_tests_cant": "it concerns every configuration with batching on; the shipped tests never enable batching with a smaller batch", "anchors": ["symbolic_regression/src/search_utils.rs: execute_task, run_iteration_phase", "symbolic_regression/src/pop_member.rs: PopMember::evaluate", "dynamic_expressions/src/evaluate.rs: eval_plan_array_into"]}
{"id": "C58", "title": "The end of an iteration rescores every member on the full data", "statement": "After the simplification, constant-optimisation and re-evaluation phase that ends an iteration, the population has the same members in the same order (ids and parents), each is well formed with its own plan and has the nodes of its (simplified) expression, and each carries exactly the loss, cost and complexity of its own expression on the full data set, even when constants were optimised on a batch; without constant optimisation the phase never fails. The exception is real: simplification there is not checked against the constraints, so a member that satisfied every constraint can leave the phase violating one (proved).", "quantifier": "all populations of well-formed members, options, data sets, batches, random streams and scratch memory states", "why_tests_cant": "ranges over all expressions, populations and random streams", "anchors": ["symbolic_regression/src/single_iteration.rs: optimize_and_simplify_population"]}
{"id": "C59", "title": "Everything a search holds is sound in every reachable state", "statement": "Initialising a search with valid options never panics, and in every state that either driver reaches, under every schedule, every member of every population (including those inside running tasks) and the reported best is a well-formed expression over the configured operators and features carrying the exact loss, cost and complexity of its expression (up to the complexity recorded before simplification), every hall-of-fame entry satisfies the size, depth, operator and nesting constraints and sits in the slot of its complexity, and every population keeps its configured size.", "quantifier": "all valid options, data sets, random streams, schedules and numbers of steps", "why_tests_cant": "an invariant over unbounded executions and interleavings of workers", "anchors": ["symbolic_regression/src/search_utils.rs: init_populations, apply_task_result, execute_task, run_scoped_search", "symbolic_regression/src/search_utils.rs: SearchEngine::step"]}
{"id": "C60", "title": "The web table becomes exactly the requested data set", "statement": "Building the data set from parsed rows never panics; it reports an error exactly if the request is invalid (no rows, fewer than two columns, ragged rows, target or weights or feature columns out of range or overlapping, no feature left); otherwise the features are the requested columns (default: all but target and weights) in ascending order and each once, the target and weights are the requested columns, row order is kept, and names come from the headers if there are as many as columns.", "quantifier": "every table, header list and choice of columns", "why_tests_cant": "All combinations of column choices, duplicates and ragged rows.", "anchors": ["web/wasm/src/lib.rs: build_full_dataset"]}
{"id": "C61", "title": "Evaluating a shown equation evaluates that equation", "statement": "During a search driven by the web API every equation shown (front or best) is found under its identifier and its evaluation on training or validation data never panics; unknown identifiers are reported; and the result is the predictions of that equation and their metrics (an error if some value is not finite), provided that no other expression held by the search has the same identifier. The exception is real: in f64 with default settings a front can show two equations under one identifier, because simplification keeps the identifier, and then one of them cannot be evaluated: the other's predictions are returned (proved).", "quantifier": "every search, point of the search, shown equation and evaluation data set with the same features", "why_tests_cant": "Depends on whole search histories and on rounding.", "anchors": ["web/wasm/src/lib.rs: evaluate_member, find_member_by_id, eval_member_on_dataset"]}
{"id": "C62", "title": "Web metrics are the textbook metrics", "statement": "Metrics are computed (no panic) exactly if predictions, targets and weights have equal length. In exact arithmetic with weights of positive sum: mse and mae are the (weighted) means, rmse the root of mse, r2 is 1 - sse/sst, the least and greatest error are attained bounds; with non-negative weights mae and rmse lie between them, r2 <= 1 and the correlation is in [-1,1]; without weights it is Pearson's coefficient and perfect predictions of a non-constant target have r2 = corr = 1 and no error. In any arithmetic the reported extremes bound every row's error that is a number. The exceptions are real (proved): perfect predictions of a constant target have r2 = 0; with weights perfect predictions can have a correlation below 1; with weights of non-positive sum the errors are reported as 0 whatever the predictions.", "quantifier": "every list of predictions, targets and weights", "why_tests_cant": "All real vectors; inequalities such as Cauchy-Schwarz.", "anchors": ["web/wasm/src/lib.rs: compute_metrics, r2_and_corr"]}
{"id": "C63", "title": "The search returns on every thread pool with at least two threads", "statement": "On a Rayon pool with any number of threads, whatever tasks the threads pick up and in whatever order they finish, equation_search behaves as the schedule-independent description says (one task per population and iteration, results applied one by one, at most n_workers in flight); it makes boundedly many steps; and with at least two threads it can only stop by returning, by a panic of the driver, or by waiting for a task that panicked. Called from inside a single-threaded pool it panics with its own message. The exception is real: called from outside on a pool with a single thread (a single-core machine) it passes that check and never returns, for every data set and options with at least one iteration (proved).", "quantifier": "every number of threads, every order in which threads take and finish tasks, every data set, options and seed", "why_tests_cant": "A test sees the pool size and the interleavings of the machine it runs on.", "anchors": ["symbolic_regression/src/search_utils.rs: equation_search, equation_search_parallel, run_scoped_search"]}
{"id": "C64", "title": "A search does not panic", "statement": "With at least two members per population, no mini-batches, tournaments that always have an entrant and a positive selection probability (and either a frequency scaling whose exponential stays finite, or at most 20 entrants), mutation weights of finite sum of which one that is never switched off is positive, and a warm-up schedule only with maxsize of at least 3: no task ever panics, under any schedule of the multi-worker driver (so it never waits for a result that will not come) and in any number of steps of the step-wise one; neither driver panics; on a pool of at least two threads an execution that cannot go on has returned. This holds for every hash function: a collision of the 64-bit hashes under which gradient plans are remembered can make constants converge badly (C06) but not panic. The only way not to return is that the rejection loop of the Poisson sampler of a migration goes on for ever on the random stream of the population; without migration every search returns. The conditions matter: with one member per population crossover panics (C29), with exhausted weights every generation does (C35).", "quantifier": "every data set, options meeting the conditions, seed, schedule, and number of steps", "why_tests_cant": "Every random stream and interleaving; a panic hides in one draw among millions.", "anchors": ["symbolic_regression/src/search_utils.rs: equation_search, SearchEngine::step", "symbolic_regression/src/single_iteration.rs", "symbolic_regression/src/regularized_evolution.rs", "symbolic_regression/src/selection.rs", "symbolic_regression/src/adaptive_parsimony.rs"]}
{"id": "C65", "title": "The baseline is the loss of predicting zero", "statement": "With use_baseline, the number every loss is divided by in the cost is the loss of predicting zero on every row (floored at 0.01); it is computed without a panic for every data set with at least one row, and is dropped (no normalisation) when that loss is not finite. Predictors, targets and weights of the data set the search works on are those given. In exact arithmetic an expression that predicts zero everywhere has cost 1 + parsimony * complexity whenever that loss is at least 0.01.", "quantifier": "every data set, loss, weights, operator set and options", "why_tests_cant": "Data sets, weights and losses are unbounded; a test checks the number on one of them.", "anchors": ["symbolic_regression/src/loss_functions.rs: baseline_loss_from_zero_expression, loss_to_cost", "symbolic_regression/src/search_utils.rs: equation_search"]}
{"id": "C66", "title": "The average target is the weighted mean", "statement": "Dataset::new and with_weights_and_names accept exactly the data whose targets (and weights, if any) have one entry per row, and keep them unchanged. avg_y is, in exact arithmetic, the weighted mean of the targets; without weights, the plain mean. It is the unique constant prediction with the least weighted squared error when the total weight is positive, and with non-negative weights it lies between the least and the greatest target. The exception is real: weights that sum to zero give an average that is not a number or infinite, silently (proved).", "quantifier": "every list of targets and weights", "why_tests_cant": "All lengths, targets and weights.", "anchors": ["symbolic_regression/src/dataset.rs: Dataset::new, Dataset::with_weights_and_names, Dataset::compute_avg_y"]}
{"id": "C67", "title": "Constants are fitted by the BFGS method", "statement": "In exact arithmetic the multi-constant optimiser is the textbook BFGS method with the backtracking line search: same iterates, same value, same number of evaluations and same failures, for every objective with its gradient, start, options and dimension. Its approximation of the inverse Hessian starts at the identity, satisfies the secant equation after each accepted update, restarts from the identity when the curvature along the step is at most 1e-12, and stays symmetric and positive definite, so every search direction is a descent direction.", "quantifier": "every dimension, objective, gradient, start, iteration count, call limit, tolerance and line search parameters", "why_tests_cant": "All dimensions and all objectives; flat index arithmetic errors only show for particular matrices.", "anchors": ["symbolic_regression/src/optim.rs: bfgs_minimize"]}
{"id": "C68", "title": "One constant entering quadratically is fitted in one step", "statement": "In exact arithmetic, for every convex quadratic in one constant (curvature at least 1e-12), with at least two iterations, no call limit, no step cap and c1 at most 1/2, the single-constant optimiser returns the start when the slope there is already within the tolerance, and otherwise the exact minimum, after exactly five evaluations of the objective.", "quantifier": "every convex quadratic, start, tolerance and iteration count", "why_tests_cant": "All coefficients and starts.", "anchors": ["symbolic_regression/src/optim.rs: newton_1d_minimize, BackTracking::search"]}
{"id": "C69", "title": "With mini-batches, returned populations carry full-data scores; the hall of fame need not", "statement": "With mini-batches of as many rows as the data set (the only size that works, C57), every task that returns has evolved its population on a batch of rows of the data, and then every member of the returned population is well formed and carries exactly the loss, cost and complexity of its own expression on the full data set. The exception is real: members seen during evolution enter the hall of fame with the loss on the batch, so a search can return a hall-of-fame entry that claims a loss far below the loss of that very expression on the data and below that of the reported best (proved with a whole run).", "quantifier": "every data set, options with batching, task and random stream", "why_tests_cant": "Every sequence of batches and evolution steps.", "anchors": ["symbolic_regression/src/search_utils.rs: execute_task, apply_task_result", "symbolic_regression/src/single_iteration.rs: s_r_cycle, optimize_and_simplify_population"]}
{"id": "C70", "title": "Migrants come from the best of the other populations or from the Pareto front", "statement": "Whenever, in any execution of either driver, the result of a task for population i is taken over: no other population changes; population i keeps its size, and each position holds the member the task returned there or a copy, under a fresh id and with the donor as parent, of a donor with the same expression, complexity, loss and cost; the donor is one of the topn cheapest members of some other population as that population was last returned (or initialised), which needs migration to be on, or an entry of the current Pareto front, which needs hof_migration to be on.", "quantifier": "every search execution, both drivers, every schedule and random stream", "why_tests_cant": "Unbounded histories and schedules.", "anchors": ["symbolic_regression/src/search_utils.rs: apply_task_result", "symbolic_regression/src/migration.rs: migrate_into, best_sub_pop"]}
{"id": "C71", "title": "A declared operator set contains exactly what was declared, and an expression built by an overload means that operator", "statement": "For every operator-set declaration that compiles and has one block per arity: each declared operator has exactly one id, the ids of an arity are 0..n-1, the id's name, display form, infix form, flags and complexity, its value and its partial derivatives are those of the declared operator, and no other id is known; the enumeration of all operators and the registry list each declared operator exactly once. Building an expression with an operator's constructor or an arithmetic overload (including literal on the left or on the right) yields a well-formed expression whose value is that operator applied to the values of the arguments, unless the constants together exceed the 16-bit index. The preset set equals this construction; its commutative and associative flags are true statements about the operations. The typed builder selects exactly the named operators in order, or panics exactly when some call has the wrong arity; a custom operator takes each field from its body or its default, and is rejected exactly when eval or partial is missing. The exception is real: a declaration with two blocks of the same arity compiles, and then the multiplication constructor builds an addition (proved).", "quantifier": "every declaration, argument expressions and constants", "why_tests_cant": "All declarations, expressions and real inputs.", "anchors": ["dynamic_expressions/src/operator_enum.rs: opset!, custom_opset!, presets", "dynamic_expressions/src/expression_algebra.rs: constructors and overloads", "dynamic_expressions/src/traits.rs / operator_registry.rs: HasOp, OpRegistry", "symbolic_regression/src/operators.rs: OperatorsBuilder"]}
{"id": "C72", "title": "Candidates are accepted by the annealed Metropolis rule with frequency correction", "statement": "Every generation ends in exactly one of five ways: ten tries of the drawn mutation all left the expression unchanged or violated the constraints (the parent is copied); a simplification is taken without a test; the first feasible candidate has no finite loss and cost (the parent is copied); or one uniform number u is drawn and the candidate is accepted exactly if u is not above exp(-(child cost - parent cost)/(T*alpha)) (when annealing) times the ratio of the frequencies of the parent's and the child's complexity (when frequencies are used), a frequency being the share of that complexity but at least one millionth, and one millionth outside 1..maxsize. So without both options everything scorable is accepted; a candidate not worse and not of a more frequent complexity is always accepted; at temperature zero exactly the candidates that are not worse are accepted, whatever the frequencies; a scorable child of a parent of infinite cost is always accepted. Cycle i of n of an iteration runs at T = 1 - i/(n-1) when annealing (1 for a single cycle) and at T = 1 otherwise, each cycle followed by an update of the hall of fame; in floating point the schedule starts at 1, never heats up and ends at 0. The evaluations counted are those of the tries plus one, but none at all when the candidate had no finite cost.", "quantifier": "every parent, statistics, temperature, options, random stream; exact arithmetic for the formula, every rounding for the schedule's shape", "why_tests_cant": "All parents, temperatures, frequencies and random streams.", "anchors": ["symbolic_regression/src/mutate.rs: next_generation", "symbolic_regression/src/single_iteration.rs: s_r_cycle", "symbolic_regression/src/adaptive_parsimony.rs: freq"]}
{"id": "C73", "title": "A web session: what is accepted, what it holds, and what its replies mean", "statement": "Opening a session is refused exactly if the operator names cannot be used, the request for columns is invalid, or the loss name is unknown (names up to ASCII case and surrounding blanks); otherwise, with a sensible configuration, it opens for every random stream. It then holds the named operators and loss with their parameters, the requested numbers and flags with everything else at its default, the requested columns under their headings, and training and validation data that are exactly the rows of a division of the table. Whatever the page calls, and in whatever order, data, split and options never change, and the search advances by exactly the cycles asked for, in one call or many, up to the total. Every step reply gives the total and completed cycles, the best equation, and the last k points of the front (k as last set, 250 at first) in strictly growing complexity and strictly falling loss; the list of best equations gives the last k with formulas that read back as the trees over the column names. The identifier shown is a decimal text that, passed back, denotes the same number; evaluating it on \"train\" or \"val\" gives the answer of the shown equation provided no other expression is held under the same identifier; malformed identifiers, unknown identifiers, other data set names and missing validation data are refused. No call ever fails to return, except a step whose migration sampler keeps rejecting.", "quantifier": "every table, request, options, random stream, and every sequence of calls", "why_tests_cant": "All tables, texts and orders of calls.", "anchors": ["web/wasm/src/lib.rs: WasmSearch, options_from_wasm, snapshot, summary_from_member", "symbolic_regression/src/options.rs: WasmOptionsShim::apply_to", "symbolic_regression/src/search_utils.rs: SearchEngine"]}
{"id": "C74", "title": "Every population uses only its own random stream", "statement": "Population i draws its random numbers from the stream seeded with seed + i and from no other: after the start, and in every state any driver reaches under any schedule, its generator (at home, in a queued or running task, or in a result on its way) is what is left of that stream after taking some draws from its front. The stream that orders the populations is a separate one, consumed in the same way. What a task returns depends only on the state it captured and on the draws it takes: with any other stream beginning with the same draws it returns the same result.", "quantifier": "every options, data set, seed, schedule, thread count and reachable state", "why_tests_cant": "All schedules, streams and reachable states.", "anchors": ["symbolic_regression/src/search_utils.rs: initialize_populations, run_search_iterations, SearchEngine", "symbolic_regression/src/single_iteration.rs"]}
{"id": "C75", "title": "With the default options, and with any sensible ones, every search returns", "statement": "In a Rust program (IEEE f64/f32, data of either type, saturating conversions, a stable sort that sorts up to 20 elements by insertion, exp accurate to a third on [-30, 0]), with options in sensible ranges: every node weighs at least one; 1 <= maxsize <= 32767 (>= 3 if a warm-up is configured) and maxsize plus the largest arity at most 65535; |parsimony| <= 2^60; at least one population, at least two members each, fewer than 2^53 members in all iterations; tournaments of 1 to 20 entrants that are the whole population or more than its square root, selection probability in (0, 1]; mutation weights in [0, 2^40] with a positive one among rotation, randomisation and nothing; no mini-batches; fewer than 30 migrants on average. Then for every set of known operators, every well-formed data set with at least one row and 1 to 65535 features, and every seed: the search starts, the step-wise driver returns from any number of steps, the multi-worker driver on two or more threads makes no more than 3*niterations*(3*populations+2) moves under every schedule, no task panics, and the execution ends only by returning; there is no exception. The default options, whatever D <= 65505 and the operators, are such options.", "quantifier": "every option value in the ranges, operator set, data set, seed (stream of f64 draws in [0,1)), schedule, number of threads >= 2", "why_tests_cant": "All configurations, streams and schedules; in particular the loop of the Poisson sampler has no bound.", "anchors": ["symbolic_regression/src/options.rs: sr_options_spec, sr_mutation_weights_spec, Options::default", "symbolic_regression/src/random.rs: poisson_sample", "symbolic_regression/src/search_utils.rs: run_search, SearchEngine", "symbolic_regression/src/optim.rs: BackTracking::default"]}
{"id": "C76", "title": "The random choices have the documented distributions", "statement": "Let the generator be fair: integer draws independent and uniform on the requested range, float draws independent and uniform on [0,1); and let arithmetic be exact. Then: a weighted choice returns entry i with probability w_i / sum w; so the kind of mutation is drawn with probability proportional to its weight, and the winner of a tournament of n >= 2 entrants is the one in place k (k = 1 the best) with the truncated geometric probability p (1-p)^(k-1) / (1 - (1-p)^n); the number of migrants for a mean below 30 is k with the Poisson probability e^(-mean) mean^k / k!; shuffling n different elements gives every order with probability 1/n!; choosing from a list gives every element the same probability; sampling n of len indices (mini-batches, tournaments) gives every ordered selection the same probability, 1/(len (len-1) ... (len-n+1)) when n^2 > len and n < len; a pass of the evolution loop is a crossover with the configured probability; a candidate is accepted with the probability exp(-delta/(T alpha)) (annealing) times the ratio of frequencies, cut at 1.", "quantifier": "every probability space with a fair generator, every list of weights, probability, mean below 30, list, number of candidates and of selected ones", "why_tests_cant": "A distribution is a statement about a measure on all random streams; a test sees finitely many samples and can only fail to reject.", "anchors": ["symbolic_regression/src/random.rs: poisson_sample, shuffle, choose", "symbolic_regression/src/selection.rs: weighted_index, sample_indices, sample_tournament_place", "symbolic_regression/src/mutate.rs: sample_mutation, next_generation", "symbolic_regression/src/regularized_evolution.rs: reg_evol_cycle"]}
{"id": "C77", "title": "The search can produce every expression the constraints allow", "statement": "For every expression over the configured operators and the features of the data, whose constants are values the normal generator can return: the generator of random expressions, asked for the size of the expression, can return it; the generator of initial members, asked for its number of operators, can return it if it fits in the size limit; the mutation that replaces a whole expression can return it from any member, if its size is at most the current size limit; if the constraints allow it, the attempts of one generation can end with it as candidate; and it becomes the child if its cost on the data is finite and a draw passes the acceptance test. 'Can return' means: some finite sequence of random draws (64-bit words and floats of the generator) makes the function return it, whatever is drawn afterwards.", "quantifier": "every expression (any size up to the limits, any shape), operator set, number of features, table of constants, size limit, parent member, temperature", "why_tests_cant": "Tests sample finitely many seeds; that no allowed expression is out of reach is a statement about all expressions and the existence of draws for each.", "anchors": ["symbolic_regression/src/mutation_functions.rs: random_expr, random_expr_append_ops", "symbolic_regression/src/mutate.rs: MutationChoice::apply, next_generation", "symbolic_regression/src/operators.rs: sample_arity, sample_op"]}
{"id": "C78", "title": "Constant optimisation keeps the best of all its runs", "statement": "Optimising the constants of an expression with a finite loss runs the minimiser from the present constants and then, as many times as configured, from the present constants each multiplied by 1 + 0.5 times a standard normal made from the next two draws; it takes exactly two draws per constant and restart and no others. The result does not depend on the contents of the buffers it is given. If no run gets below the present loss the member is unchanged; otherwise its constants become the minimiser of the run with the smallest minimum, the first one among equals. The number of evaluations reported is the number of objective calls of all the runs that return a point, plus one when there was an improvement (the calls of runs that give up are not reported, see C94).", "quantifier": "every member with constants, data set, loss, optimiser settings, number of restarts, random stream, state of the evaluation and gradient buffers", "why_tests_cant": "The runs depend on the loss landscape and the random stream; that the best one is kept, whatever the order and the failures, is a statement about all of them.", "anchors": ["symbolic_regression/src/constant_optimization.rs: optimize_constants, EvalWorkspace::optimize_from_start", "symbolic_regression/src/random.rs: standard_normal"]}
{"id": "C79", "title": "The noise on constants is standard normal", "statement": "The generator of noise (used for new constants and for the starting points of constant optimisation) takes two float draws u, v and returns sqrt(-2 ln(max(u, MIN_POSITIVE))) * cos(2 pi v). With independent draws, uniform on [0,1), and exact arithmetic, this is exactly a standard normal variable except on an event of probability MIN_POSITIVE (2^-1022): for every set A the probability of falling in A differs from the normal probability by at most that. For every pair of draws the value is below 38 in size, so it is never infinite or NaN.", "quantifier": "every probability space with a fair generator, every measurable set; every pair of draws for the bound", "why_tests_cant": "A distribution over all streams cannot be settled by samples; the bound must hold for every pair of draws.", "anchors": ["symbolic_regression/src/random.rs: standard_normal", "symbolic_regression/src/mutation_functions.rs: random_leaf", "symbolic_regression/src/constant_optimization.rs: optimize_constants"]}
{"id": "C80", "title": "The progress display tells the truth", "statement": "With the progress option off, or standard error not a terminal, the display never changes. Otherwise, at every moment of a run of either driver, whatever the number of workers, the order of results, the clock readings and the terminal: the bar has length niterations * populations and stands at the number of completed cycles; the message is the one made at some completed cycle (evaluations so far, elapsed time, average speed, the table of the hall of fame at that cycle) and less than half a second had passed at each cycle since (or there is none yet, and less than half a second had passed since the start at each cycle). When the search ends the message is about the final hall of fame and evaluation count, however fast the last cycles came, the bar is at its end and the display is closed; the step-wise driver never closes it before. The speed is the mean of at most twenty measurements, each over at least a second. No line is longer than the terminal is wide (79 characters on narrower ones), and the display never panics.", "quantifier": "every run of either driver, every schedule, every sequence of clock readings (also non-monotone) and terminal widths, every text of numbers and equations", "why_tests_cant": "Depends on the interleaving of worker results and on the clock; tests do not run with a terminal.", "anchors": ["symbolic_regression/src/progress_bars.rs: SearchProgress, update_progress_msg", "symbolic_regression/src/search_utils.rs: apply_task_result, step_one_cycle, equation_search_parallel"]}
{"id": "C81", "title": "Sampling Poisson numbers with a large mean", "statement": "For a mean of at least 30 the number of migrants is drawn by transformed rejection with the published constants: in exact arithmetic one round with draws u, v proposes k = floor((2a/us + b)(u - 1/2) + mean + 0.43), us the distance of u from the border of [0,1] (saturating at the largest i64), and returns it exactly if it is not negative and either us >= 0.07 and v <= v_r, or v <= alpha * slope(u) * e^(-mean) mean^k / k! and not (us < 0.013 and v > us). Hence with fair draws the result has the distribution of an accepted round; a round is repeated with probability at most 9/20, independently, so n rounds have no result with probability at most (9/20)^n; and the sampler returns with probability 1 for every mean, of any size or not a number.", "quantifier": "every mean, every pair of draws, every probability space with independent uniform draws, every number of rounds", "why_tests_cant": "A rejection loop has no worst case: a test only sees a few seeds, and a constant slightly off leaves samples that look right.", "anchors": ["symbolic_regression/src/random.rs: poisson_sample, log_factorial"]}
{"id": "C82", "title": "A search can find every expression the constraints allow", "statement": "No expression is out of reach: take any tree over the configured operators and the features of the data, with constants that the generator of constants can produce, that has at most as many nodes as the size limit of a cycle, satisfies every constraint under that limit, and has a finite loss and a finite cost on the data. Then for every cycle of the search (every iteration, every population, whatever the order in which the populations are visited, whatever the state the search has reached) there are streams of draws of the generators (64-bit words, and floats of the generator) for which the search, at the end of that cycle, has a hall-of-fame entry of exactly the complexity of that tree whose cost is at most the cost of the tree, and it keeps such an entry until the end. The same holds of a single task on any population. What it needs of the draws is only: zero can be drawn, a draw can call for a mutation, a draw can choose the mutation that replaces the expression, and the samplers of the migrations can return. With the default options all of this holds in binary64 arithmetic for draws that are multiples of 2^-52, as the generator makes them, for every operator set and data set; in exact arithmetic a positive weight of that mutation is enough.", "quantifier": "every option set of the class, every data set, every admissible tree, every cycle, every order of the populations", "why_tests_cant": "A test that does not find an expression does not show that it cannot be found, and one that finds it says nothing about the other expressions; a search that silently excludes some trees still returns plausible results.", "anchors": ["symbolic_regression/src/search_utils.rs: SearchEngine::step, execute_task, apply_task_result", "symbolic_regression/src/regularized_evolution.rs: reg_evol_cycle", "symbolic_regression/src/mutate.rs: next_generation, condition_mutation_weights", "symbolic_regression/src/selection.rs: weighted_index", "symbolic_regression/src/options.rs: Options::default"]}
{"id": "C83", "title": "The background worker of the web page is truthful and does not stall", "statement": "Take any sequence of messages from the page (init, start, pause, reset, step, evaluate) and any interleaving of them with the waits inside the worker (between two passes of its loop, and while the compiled module is loading). (1) Every snapshot, list of equations and evaluation that the worker posts is the reply, at that moment, of the search that its last `ready` announced, which was made for one of the requests it received and was not reset since; `done` is posted only when that search is finished; before the first `ready` nothing is said about a search. (2) If the searches do not panic (as C73 and C75 say of searches opened with sensible options) then a worker that is running always has a search and a loop waiting to go on with it, and if no further messages come it ends: after exactly one pass per ten cycles left (rounded up) and one to end each waiting loop, with the search finished, posting `done` exactly once. (3) Once it has been paused or reset, the search does no cycle and nothing about its progress is posted until a `start`, a `step` or the end of an `init`. (4) Between two `ready` messages, successive snapshots of a session show the same total of cycles, counts of completed cycles and evaluations that do not go down, and a best equation that changes only for one of strictly smaller loss. (5) `evaluate` is answered at once under the same identifier, with \"member not found\" exactly if the search says so; `step` of n cycles does n cycles (none for a negative n) and is answered by the snapshot and the front after them; without a search `start`, `step` and `evaluate` are answered by an error. The exceptions are real (proved): a `step` counts its cycles modulo 2^32 as a signed number; `pause` followed by `start` before the loop was woken leaves two loops on one search, and their end is told as `done` followed by `paused`; `reset` of a running search is answered by `resetDone` and then a late `paused`; a panic inside the loop is told to nobody and leaves the worker marked as running, so that a later `start` is ignored.", "quantifier": "every sequence of messages and every interleaving of the waits, every implementation of the search object; (4) every session and random stream", "why_tests_cant": "The behaviour depends on the moments at which messages arrive between the asynchronous waits; a test sees a few of these interleavings, and the wrong ones are rare and not repeatable.", "anchors": ["web/ui/src/worker/srWorker.ts: onmessage, runLoop", "web/ui/src/worker/protocol.ts: WorkerToMain, MainToWorker", "web/wasm/src/lib.rs: WasmSearch"]}
{"id": "C84", "title": "What the Run tab of the web page shows is genuine and not misleading", "statement": "Take any sequence of what the user can do on the Run tab (initialise, start, pause, reset, select an equation, leave the tab and come back; a disabled button cannot be clicked) and any interleaving with the worker, its waits and the messages on the way. (1) Everything the page shows (split, snapshot, front, evaluations) is a reply of a search that was made for a request the user clicked. (2) If searches do not panic, then when the user stops acting the page comes to rest: no endless sequence of events is possible. (3) At rest, if the tab was not left, the page is not shown as initialising or running and the worker is not running; shown as ready there is a search that can be started; shown as idle there is none; shown as done, the search is finished and the snapshot and front on the page are its last ones. (4) At rest, the selected equation is one of exactly the complexity the user asked for, or of the next lower one in the front, or if there is none of the smallest; and if the identifiers in the front are distinct, it is the equation displayed. (5) Asking for an equation that the search no longer has changes nothing on the page. (6) When an equation is selected, by a click or by the page itself, the page asks for its values on the training rows, and on the validation rows exactly if there are any, and changes nothing but the selection. The exceptions are real (proved): a reset while running leaves the page at rest shown as paused, so that it can be started, with no search; leaving the tab while running leaves it at rest shown as running with a new worker that has no search; and an evaluation on the way when the user initialises again is kept and shown for the equation of the new search with that identifier.", "quantifier": "every sequence of user actions, every interleaving of them with the events of the worker and the arrival of messages, every implementation of the search object", "why_tests_cant": "The page and its worker communicate by messages that cross; a test with scripted clicks sees a few orders of arrival, and the misleading states come from rare ones.", "anchors": ["web/ui/src/app/panes/searchSolutions/useSearchController.ts: useSearchController", "web/ui/src/state/sessionStore.ts: runtime, getSelectedSummary", "web/ui/src/worker/srWorkerClient.ts: SrWorkerClient", "web/ui/src/app/panes/searchSolutions/ControlsCard.tsx", "web/ui/src/worker/srWorker.ts"]}
{"id": "C85", "title": "The page shows the data that is searched, and its plots put each prediction beside its own data", "statement": "The page and the session read the text of the data separately. (1) The preview shows exactly the data lines all of whose cells are finite numbers, in order, with one name per column, and reports an error exactly if there is none. (2) If the session accepts the text and all its numbers are finite, the rows on the page are the rows of the session; the columns that Parse fills in are those the session would have taken by itself, so parsing does not change what is searched. (3) The page is up to date as long as the text and the header switch are not changed after a successful Parse, whatever else is done. (4) Under these conditions, and if the session was opened with the text and options on the page, the targets that the page puts beside the predictions on training and validation rows are those of the session's data sets in the same order and number: the k-th target and the k-th prediction belong to the same line of the text, the prediction being the value of the equation at its feature cells; the curve consists of the finite pairs of feature and prediction in ascending order. The exceptions are real (proved): a line with `nan` or `inf` is kept by the session and dropped by the page, so that the plot pairs predictions with other lines; editing the text after Parse and initialising plots old targets against new predictions; the columns filled in for one text stay for the next, so that its last column is not the target; an empty cell is previewed as zero though the session refuses it.", "quantifier": "every text (given as lines of cells), choice of columns and headers, history of edits and parses, split and equation", "why_tests_cant": "The claim relates two independent readers and the order of rows after a random split for every table; a misalignment is invisible in any test that only looks at one side.", "anchors": ["web/ui/src/state/sessionStore.ts: parseCsvText, parseCsv, ensureParsedForRuntime", "web/wasm/src/lib.rs: parse_csv_to_rows, build_full_dataset, split_train_val, evaluate_member", "web/ui/src/app/panes/searchSolutions/useSearchController.ts: gatherByIndices, gatherPairsByIndices", "web/ui/src/app/panes/searchSolutions/plotUtils.ts: sortXY"]}
{"id": "C86", "title": "The options on the web page are those of the search", "statement": "When the user initialises a search on the page and every value in the options is one its field can hold (whole numbers from 0 to 2^32-1 for counts and columns, numbers for probabilities and factors, truth values for switches, a text for the loss), the session has exactly these options: header switch, target, weight and feature columns, validation fraction, loss with its parameters, seed, every count, probability, weight and switch of the search (those of single precision rounded once), with the documented default for each that the page does not set, and the operators named; an input on the page changes the option it is about and no other. If the options are sensible (C75), the table valid and the operators known, the session opens. The exception is real (proved): if one single value cannot be held by its field (a size of 2.5, a negative count), all options on the page are silently replaced by the defaults, the chosen columns and the loss included: with target column 0 on the page the session predicts the last column. Also real (proved): where the options object has no header switch, the page reads it as off and the session as on, so that the page shows one row more than is searched. The page and the session agree on whether the first line is a heading exactly when the options suit the session and contain the switch, or when they do not suit it and the page reads a heading; the page reads no heading exactly when the switch is missing, null, false, zero, not a number or the empty text.", "quantifier": "every options object (any values of any type under any names), table, choice of operators and random streams", "why_tests_cant": "The claim ranges over fifty fields and all values of each, and its failure is silent: a test sees a search that runs.", "anchors": ["web/wasm/src/lib.rs: WasmSearchOptions, WasmSearch::new, options_from_wasm", "symbolic_regression/src/options.rs: WasmOptionsShim, apply_to, MutationWeights", "web/ui/src/state/sessionStore.ts: setOptionsPatch, loadWasmMetadata, parseCsv", "web/ui/src/app/panes/ModelingTask.tsx", "web/ui/src/app/panes/EnterData.tsx"]}
{"id": "C87", "title": "To initialise and to start is all a user of the web page has to do", "statement": "On a page at rest the user clicks Initialise and waits until the page is at rest: if the data, operators, loss and options are valid and sensible and the module could be loaded, the page is shown as ready, the worker has the session opened for exactly this request, and the page shows its split and no equation, snapshot or evaluation of an earlier one; otherwise it is shown as in error. Then the user clicks Start and waits, possibly looking at equations: whenever the page is at rest again, in whatever order messages and timers came, the search has done all its cycles and the page is shown as done (or as in error, but only if an equation was looked at whose evaluation failed). The state of the search is the one in which the library's run_to_completion ends for the options, data and seed on the page, the page says that all of niterations times populations cycles are done, and the snapshot and the equations on the page are the last ones of that search. And this rest can always be reached.", "quantifier": "every earlier history of the page without leaving the Run tab, every accepted request with sensible options (C75), every order of messages, timers and clock readings between page and worker, every stream of random draws", "why_tests_cant": "A test fixes one schedule of the messages and timers of two concurrent programs and one history of the page.", "anchors": ["web/ui/src/worker/srWorker.ts", "web/ui/src/worker/workerClient.ts", "web/ui/src/state/sessionStore.ts", "web/ui/src/app/panes/ControlsCard.tsx", "web/wasm/src/lib.rs: WasmSearch", "symbolic_regression/src/search_utils.rs: SearchEngine::step, run_to_completion"]}
{"id": "C88", "title": "The choices of columns and operators on the web page are always ones the session accepts", "statement": "Whatever a user does on the forms (editing the text, the header switch, Parse, choosing the target, the weights or features, ticking operators), as long as all texts entered have the same number n of columns: the target is a column of the table, the weights are another one or none, and the features are other columns again, in ascending order and each once; so a session accepts the choice for every table of n columns exactly if at least one feature is chosen (or none was ever chosen). Once the table was parsed on the Data tab, the boxes that are ticked are exactly the columns searched with, then and ever after. No operator is ever chosen twice, every one chosen is one the session knows, and the session accepts the operators exactly if one is chosen and then uses exactly these. A click changes just what is clicked, and the columns and operators of the request are those chosen. The exceptions are real: if the table was parsed by the Run tab only, no box is ticked although all columns but the last are searched (proved); and when a table with at least two fewer columns is entered after another was parsed, a feature that no longer exists stays chosen, has no box, and nothing the user can do on the forms gives a choice that a session accepts (proved).", "quantifier": "every text, every sequence of events on the forms, every number of columns, every test for white space that does not hold of letters and digits", "why_tests_cant": "The choice depends on the whole history of clicks and texts; tests follow a few.", "anchors": ["web/ui/src/app/panes/EnterData.tsx: EnterData, clampInt", "web/ui/src/app/panes/ModelingTask.tsx: groupByArity, OperatorsGroup", "web/ui/src/state/sessionStore.ts: parseCsv, ensureParsedForRuntime, toggleOp, toggleInList, applyPreset, loadWasmMetadata, setOptionsPatch", "web/wasm/src/lib.rs: builtin_operator_registry, WasmSearch::new"]}
{"id": "C89", "title": "The number of evaluations reported lies within bounds given by the options", "statement": "In every state of a search, with either driver, any data, seeds and schedule, the reported number of evaluations is at least populations * population_size (the initial members) plus population_size for every completed cycle, and at most that initial number plus, for every completed cycle, ncycles_per_iteration * ceil(population_size / tournament_selection_n) * B + P + population_size, where B (a pass of evolution) is 2 without optimisation of constants and otherwise 10 * F + 1, F = (1 + optimizer_nrestarts) * C + 1 bounds the calls of one optimisation, C follows from optimizer_iterations, the line search and optimizer_f_calls_limit (at most limit + 2 calls if a limit is set), and P is population_size * F if constants are optimised at the end of cycles and 0 otherwise. (The counter stops at 2^64 - 1.) A search that returns has therefore counted at least (niterations + 1) * populations * population_size evaluations. Both bounds are attained. The counter is not exact: evaluations made by a mutation whose attempts all fail or whose child has no finite cost are not counted (proved on a case where 110 evaluations are reported as 0).", "quantifier": "every options value, data set, random sequence, schedule and number of workers, in every reachable state of both drivers", "why_tests_cant": "The number of evaluations depends on every random draw and on how each minimisation goes; tests see a few runs.", "anchors": ["symbolic_regression/src/search_utils.rs: apply_task_result, execute_task, init_populations, SearchEngine::total_evals", "symbolic_regression/src/mutate.rs: next_generation, crossover_generation", "symbolic_regression/src/constant_optimization.rs: optimize_constants", "symbolic_regression/src/optim.rs: bfgs_minimize, newton_1d_minimize", "symbolic_regression/src/single_iteration.rs: optimize_and_simplify_population"]}
{"id": "C90", "title": "The probability that a search misses an expression the constraints allow falls geometrically with the number of cycles", "statement": "Take independent random draws, of any law that gives every 64-bit word a positive probability (the uniform law on the 64-bit words is one; a float draw is a multiple of 2^-52 in [0,1) made of 52 bits). For every expression that the operators, constraints and size limit allow and that has a finite cost on the data, there is one positive number eps - independent of the number of iterations, the order of the populations and everything that happened before - such that a cycle in which the size limit allows the expression ends, with probability at least eps, with an entry of its complexity in the hall of fame that costs no more than the expression. Hence the probability that a search has no such entry after n cycles is at most (1 - eps)^(n - a), where a is the number of cycles before the size limit of the warm-up allows the expression (0 without warm-up, as by default). It holds for the default options, any operators of the set and any data set, while niterations * populations * population_size stays below 2^53. The same bound holds for the multi-worker driver with the default exchange of members, for every number of workers and for every rule that decides which of the tasks in flight is received next, as long as the rule does not know what tasks not yet dispatched will draw: it may look at the whole past, at everything the search holds, and at everything the tasks in flight draw and return - so the order may depend on how long each task takes, which is decided by its draws. If moreover the populations do not exchange anything (no migration of either kind, frequencies unused), the same bound holds for the multi-worker driver in the strongest sense: the probability that there exist a number of workers and a schedule with which the search does not return, or returns without such an entry, is at most (1 - eps)^(n - a) with n = niterations * populations - even a scheduler that knows all the draws can not prevent the search from finding the expression. The same holds for every execution on every pool of two or more threads.", "quantifier": "every sensible options value, data set, allowed expression, number of iterations, order of the populations and law of the draws with full support; with any number of workers and any scheduler that knows at most the past and the tasks in flight; and with any number of workers and any schedule when the populations do not exchange anything", "why_tests_cant": "A probability over all sequences of draws, bounded uniformly over all states of the search, cannot be read off finitely many runs; a test could only see that some targets were found.", "anchors": ["symbolic_regression/src/search_utils.rs: SearchEngine::step, run_scoped_search, execute_task, apply_task_result, init_populations", "symbolic_regression/src/regularized_evolution.rs: reg_evol_cycle", "symbolic_regression/src/mutate.rs: next_generation, condition_mutation_weights, sample_mutation", "symbolic_regression/src/mutation_functions.rs: random_expr"]}
{"id": "C91", "title": "A longer search passes through the result of the shorter one, and is never worse", "statement": "Without warm-up of the size limit (the default), a search with more iterations and otherwise the same options, data and seeds is, after every number of cycles that the shorter search has, in the same state as the shorter search: the same populations, hall of fame, best member, statistics and evaluation count - or both panic. With several workers, every execution of the shorter search is, event by event, one of the longer search, and every complete execution of the longer one begins with a complete execution of the shorter one. So the longer search ends with a hall of fame in which every entry of the shorter one is still there or replaced by a cheaper one of the same complexity, and with a best member that is the same or has a smaller loss. The exception is real: with a warm-up the size limit of a given cycle depends on the total number of cycles, so the two searches can already differ in their second cycle (proved).", "quantifier": "every options value without warm-up, data set, pair of iteration counts, seeds, number of cycles and interleaving of the workers", "why_tests_cant": "It relates two whole runs for every seed and every schedule; a test compares two runs for one seed, and for several workers cannot enumerate the interleavings.", "anchors": ["symbolic_regression/src/search_utils.rs: SearchEngine::new, SearchEngine::step, equation_search_parallel, run_scoped_search, apply_task_result, SearchCounters", "symbolic_regression/src/warmup.rs: get_cur_maxsize"]}
{"id": "C92", "title": "Weights that are all one are no weights, and a common factor of the weights changes nothing", "statement": "A search on data with weights that are all one does the same as a search on the same data without weights, bit for bit: after every number of cycles the same hall of fame, best member, populations, statistics, evaluation count and random numbers - with and without mini-batches, with every built-in loss and its gradient and with the baseline - or both panic; with several workers the executions of the two correspond to each other event by event. This holds as long as the float type can count the rows and the rows of a batch (2^24 for f32, 2^53 for f64). Multiplying all weights by the same positive number changes nothing either in exact arithmetic, or for a factor that commutes with every rounding. The exceptions are real: with 2^25 rows of f32 and predictions that are all off by one the mean squared error is 1 with weights that are all one and 1/2 without weights (the running sum sticks at 2^24; proved), and in f64 a factor that makes the sum of the weights overflow makes the loss NaN, one that makes the weights underflow makes it 0 (proved).", "quantifier": "every data set, options value, loss, seeds, number of cycles and interleaving of the workers; every positive factor", "why_tests_cant": "It relates two whole runs for every data set, seed and schedule; the exception needs 2^24 rows, far beyond what a unit test uses.", "anchors": ["symbolic_regression/src/loss_functions.rs: MeanLoss::loss, MeanLoss::dloss_dyhat, Rmse, baseline_loss_from_zero_expression", "symbolic_regression/src/dataset.rs: Dataset::with_weights_and_names, make_batch_buffer, resample_from", "symbolic_regression/src/constant_optimization.rs: EvalWorkspace::loss_and_grad", "symbolic_regression/src/search_utils.rs: SearchEngine::step, equation_search_parallel, run_iteration_phase"]}
{"id": "C93", "title": "What a data set means does not depend on how its arrays lie in memory", "statement": "A data set built from arrays behaves as the data set of the numbers in them: for every layout of x (row-major, column-major, strided, reversed, a slice of a larger array) and for every y and weights without gaps (also slices of larger arrays), the constructor accepts the arrays exactly when the shapes match, the average target is that of the numbers, every evaluation, loss, gradient and baseline reads exactly these numbers, and mini-batches copy exactly the rows and weights that indexing shows. The exceptions are real (proved): weights of two or more rows that are not contiguous (every second element of a buffer, a column of a matrix, a reversed view) are accepted without an error but ignored by the average target and by every loss, gradient and baseline on the whole data set - the score of an expression is the one without weights - while mini-batches do use them; a target that is not contiguous panics in the constructor. The standard-layout copy of x stays inside its buffer, has the same shape, and its flat slice holds element (i, j) at place i*cols+j; an array made from a list is contiguous and shows that list.", "quantifier": "every x, y and weights, with every offset, stride (also negative) and shape; every expression, options value and batch", "why_tests_cant": "Tests build their arrays from vectors, which are contiguous; the claim ranges over every layout, and the violation is silent (a different loss, no error).", "anchors": ["symbolic_regression/src/dataset.rs: Dataset::build_dataset, with_weights_and_names, weights_slice, make_batch_buffer, resample_from", "symbolic_regression/src/pop_member.rs: PopMember::evaluate", "symbolic_regression/src/constant_optimization.rs: EvalWorkspace::loss_only, loss_and_grad", "symbolic_regression/src/loss_functions.rs: baseline_loss_from_zero_expression", "dynamic_expressions/src/evaluate.rs: eval_plan_array_into, resolve_val_src"]}
{"id": "C94", "title": "The limit on objective calls only cuts a run of the optimiser short", "statement": "Under a limit on the objective calls (optimizer_f_calls_limit), a run of the optimiser of constants - BFGS for several constants, Newton for one - is either exactly the run without a limit but with some smaller or equal number of iterations (same point, same value, same number of calls), or it gives up, having made at least as many calls as the limit. A limit larger than the number of calls of the run without a limit changes nothing. The exceptions are real (proved): a limit reached inside a line search throws away the progress of all earlier iterations, so that a limit of five calls can give nothing where a limit of four gives an improvement; and the calls of runs that give up are not counted - when every run of a fit gives up, the member is as before and the number of evaluations reported is zero.", "quantifier": "every objective, rounding, start, dimension, limit, number of iterations and line-search setting; for the count: every member, data set, loss, number of restarts and random stream", "why_tests_cant": "It relates runs with all limits and all numbers of iterations, on every objective; where the limit falls - between iterations or inside a line search - depends on the loss landscape.", "anchors": ["symbolic_regression/src/optim.rs: bfgs_minimize, newton_1d_minimize, backtracking_linesearch, EvalBudget", "symbolic_regression/src/constant_optimization.rs: optimize_constants", "symbolic_regression/src/options.rs: optimizer_f_calls_limit"]}
{"id": "C95", "title": "Without mini-batches only losses and gradients count: row order and repetition do not matter in exact arithmetic", "statement": "A search without mini-batches sees the data only through the losses and loss gradients of expressions: on two data sets with the same number of features and the same baseline on which every well-formed expression has the same loss and the same gradient of the loss with respect to its constants - whatever their numbers of rows -, the same options and random numbers give the same search at every point (members, hall of fame, best, statistics, evaluation counts, generators), step-wise and with any number of workers in any order of events; in any arithmetic. In exact arithmetic it follows, for positive weights or none, that only the total weight of each distinct row (features and target) counts: rows may be reordered, a row that occurs n times may be replaced by one of weight n, rows may be split; the baseline included. The exceptions are real (proved): in f64 the order of the rows changes the loss (errors 2^53, 1, 1 against 1, 1, 2^53), and a row of weight zero is not ignored: an expression that is not finite there has no loss.", "quantifier": "every pair of data sets as described, every configuration of SearchSetting (no mini-batches), arithmetic, loss, random streams, number of steps, number of workers, order of events", "why_tests_cant": "It relates two whole searches on data sets of different sizes, through every evaluation, gradient, line search and re-used plan; a test compares two runs.", "anchors": ["symbolic_regression/src/pop_member.rs: evaluate", "symbolic_regression/src/constant_optimization.rs: optimize_constants, ConstObjective", "symbolic_regression/src/loss_functions.rs: MeanLoss, Rmse", "symbolic_regression/src/search_utils.rs: run_iteration_phase, execute_task, SearchEngine, run_scoped_search"]}
{"id": "C96", "title": "The figures the web page computes itself: column statistics, inspection plot, evaluations per second", "statement": "The table of columns on the data tab has a line for every column under its name; minimum and maximum are the least and the greatest finite number in that column, in any arithmetic; in exact arithmetic the mean is the mean of the finite numbers and the deviation is the square root of the mean squared distance from it (never missing for a column with a finite number); a column without finite numbers shows infinities and NaN. The inspection plot shows exactly the rows in which both chosen columns hold finite numbers, in order. The evaluations per second on the run tab are, in exact arithmetic and after any history of snapshots, resets and initialisations, the fading average (one fifth new, four fifths old) of the speeds measured between successive snapshots since the last initialisation, hence between the slowest and the fastest of them, not negative, and shown as soon as one has been measured. The exceptions are real (proved): in f64 a column of three times 0.1 is shown with a mean above its maximum and without a standard deviation (NaN instead of 0), because the variance is computed as the difference of two nearly equal numbers; and the time while a search is paused counts as running time, so that the speed shown after a pause is too low.", "quantifier": "every table of rows of any lengths, every column, every square-root function, every arithmetic (extremes) or exact arithmetic (mean, deviation, speed), every history of snapshots, resets and initialisations with any times and counts", "why_tests_cant": "It ranges over all tables and all histories of messages with arbitrary times; a test looks at one table and one sequence, and the f64 exception appears only for particular values.", "anchors": ["web/ui/src/app/panes/EnterData.tsx: columnSummary, scatter", "web/ui/src/app/panes/searchSolutions/useSearchController.ts: onSnapshot, onResetDone, initSearch"]}
{"id": "C97", "title": "Losses in f64 and f32 are accurate to a stated relative error", "statement": "A finite mean squared error computed in f64 over n rows differs from the exact mean of the squares of the differences between the given predictions and targets by at most the relative amount (n+4)/2^52, a mean absolute error by at most (n+2)/2^52 (in f32: the same over 2^23), provided no difference other than zero is below 2^-484 (f32: 2^-51) and n+4 <= 2^52 (2^23); with weights that are zero or at least 2^-100 and add up to at most 2^100 and differences that are zero or at least 2^-400, by at most (2n+5)/2^52 and (2n+3)/2^52 (f32: weights that are zero or at least 2^-20 and add up to at most 2^20, differences that are zero or at least 2^-40, over 2^23). The quantile loss (2^-20 <= tau <= 1-2^-20) is within (n+4)/2^52 of the exact mean pinball loss, Huber's loss (threshold a float of at least 2^-484) within (n+6)/2^52 of its exact mean, also when rounding carries a difference onto the threshold (f32: over 2^23; weighted in f64: (2n+5)/2^52 and (2n+7)/2^52), and with a correctly rounded square root the square of the root mean square error is within (n+6)/2^52 of the exact mean of the squares. The epsilon-insensitive loss (epsilon a float of at least 2^-900, f32: 2^-100) is within (n+6)/2^52 (f32: 2^23) times the mean distance plus epsilon of its exact mean, whatever the sizes of the differences. Each finite component of the gradient of the mean squared error in f64 is within the relative amount 2^-50 (f32: 2^-21) of 2(prediction-target)/n, and each component of that of the mean absolute error in f64 has the right sign (0 where the prediction is right) and is within 2^-53 of 1/n. Hence the mean squared error orders expressions as the exact losses do up to a factor (1+d)/(1-d) with d=(n+4)/2^52, and in every state that a search in f64 with the mean squared error reaches, step-wise or with any number of workers, the loss of the best member is accurate in this sense with respect to the predictions of its expression. The exceptions are real (proved): if the sum of the weights overflows while the weighted losses do not, the loss is reported as zero (two rows of weight 2^1023, each missed by 1/2), and a difference of 2^-538 has a square that underflows to zero, and the epsilon-insensitive loss has no relative bound: a difference that exceeds epsilon=1 by 2^-60 has the loss zero; and the log-cosh loss in f64 is infinite as soon as one prediction misses its target by 713, because cosh overflows, although the exact loss of a row is at most the distance. The order of the rows changes a mean squared error in f64 by at most twice the bound, and it can change it (three rows, proved).", "quantifier": "every list of predictions, targets and weights within the stated ranges (any length), every search configuration of SearchSetting, all random streams, numbers of steps, workers and orders of events", "why_tests_cant": "It is a bound on accumulated rounding errors for every data set of any length; tests compare a few sums with a tolerance chosen by hand.", "anchors": ["symbolic_regression/src/loss_functions.rs: MeanLoss::loss, MeanLoss::dloss_dyhat, SquaredLoss, AbsLoss, QuantileLoss, HuberLoss, Rmse, EpsilonInsensitiveLoss", "symbolic_regression/src/pop_member.rs: evaluate"]}
{"id": "C98", "title": "Populations that exchange nothing do not depend on the schedule", "statement": "With both migrations switched off and the frequencies of complexities used neither in tournaments nor in the acceptance test, every population lives its own life: in every state the multi-worker search reaches, with any number of workers and any order of results, each population is what it becomes on its own (with the size limits of the warm-up fixed by the shuffled orders alone) in the finished iterations, or one task further. Any two searches with the same seeds that return, with any numbers of workers, on any thread pools and under any schedules, and also the step-wise search, end with identical populations (members, identities, random streams), the same number of evaluations and cycles, the same loss of the reported best, and a hall of fame with entries of the same cost for the same complexities. The exception is real (proved): with migration the result depends on which worker is faster, for the same seeds and number of workers.", "quantifier": "every configuration with the four switches off (populations and evaluations: any data, arithmetic and mini-batches; best and hall of fame: SearchSetting), all random streams, numbers of workers and threads, all orders of events, numbers of iterations and populations", "why_tests_cant": "A test runs a few of the exponentially many schedules, and a race that changes a result can hide for years; the claim is equality over all of them.", "anchors": ["symbolic_regression/src/search_utils.rs: run_scoped_search, execute_task, apply_task_result, SearchEngine", "symbolic_regression/src/mutate.rs: next_generation", "symbolic_regression/src/selection.rs: best_of_sample", "symbolic_regression/src/warmup.rs: get_cur_maxsize"]}
{"id": "C99", "title": "Evaluating an expression of elementary operations in f64 and f32 is accurate, unless it cancels", "statement": "For every expression of the operators +, -, *, /, negation, abs, identity, square and inverse, in every row in which no operation overflows or underflows, the evaluator returns (unless it stopped early) a number y that compares with the exact value x of the expression thus: without divisions, |y - x| is at most k/2^52 (f64) or k/2^23 (f32) times the value of the expression in which every subtraction and negation is an addition and every feature and constant is replaced by its absolute value; without subtractions and negations and with all features and constants positive, |y - x| is at most the relative amount k/2^52 (k/2^23). Here k is the number of roundings on the way: the larger number of the two operands plus one for a sum, the sum of both plus one for a product or quotient. If the evaluator checks for finiteness and reports completion, overflow need not be excluded: in every row with finite features and constants and without underflow the output is a finite number of that accuracy (f64). The exception is real (proved): with a subtraction the relative error can be one: (1 + x) - 1 at x = 2^-60 evaluates to 0.", "quantifier": "every operator set with any choice of ids, every expression of any depth, every data matrix, constants, options", "why_tests_cant": "The bound must hold for every tree and every rounding pattern; tests compare a few expressions with a fixed tolerance.", "anchors": ["dynamic_expressions/src/evaluate.rs: eval_tree_array", "dynamic_expressions/src/operator_enum.rs: Add, Sub, Mul, Div, Neg, Abs, Abs2, Identity, Inv"]}
