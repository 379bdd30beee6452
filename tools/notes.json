{
 "C01": {
  "note": "is_valid_postfix modelled exactly; tree unique."
 },
 "C02": {
  "note": "All of node_utils.rs."
 },
 "C06": {
  "note": "DEFECT in the code: unconditional claim is false for every hash function (C06_collision_counterexample); proved for value, directional and gradient contexts for every history without a 64-bit node-hash collision. The derivative contexts: in any arithmetic (C06_deriv_context_any_arithmetic)."
 },
 "C07": {
  "note": "C07_diff_correct: chain rule where 0*x=0 and 0+x=x; C07_any_arithmetic and C07_flag_any_arithmetic: every scalar type, with the one shortcut spelled out in Spec/GradSkip."
 },
 "C08": {
  "note": "C08_grad_correct: chain rule where 0*x=0; C08_any_arithmetic: every scalar type, with the shortcuts spelled out. At least one row; C08_zero_rows_panics proves the zero-row gradient of a feature panics. DEFECT in the code: C08_evaluators_differ, the two evaluators disagree (NaN against 0) in floating point."
 },
 "C10": {
  "note": "All 40 built-ins over the reals on their open domains; clamp with hi<x<lo is excluded and C10_clamp_counterexample proves its declared partial is wrong there."
 },
 "C14": {
  "note": "DEFECT in the code: the unconditional claim C14Full is false (C14_full_false, 1 - atanh(x) becomes 2 - x with the preset operators); proved under the hypothesis that the sub id occurs only with arity 2."
 },
 "C53": {
  "note": "DEFECT in the code: probability_negate_constant is inverted, the sign flips with probability 1-p (C53_negation_probability, Lebesgue measure of the draws). Factor bounds over the reals."
 },
 "C22": {
  "note": "Constants of donor subtrees are remapped; children described up to constant renumbering, values unchanged."
 },
 "C19": {
  "note": "All ten mutations; setting: at least one feature, arities within 1..D, fewer than 65536 constants (u16)."
 },
 "C25": {
  "note": "First least-cost feasible member per complexity, over every offer history."
 },
 "C27": {
  "note": "DEFECT in the code: a NaN-cost member offered first to a slot is never replaced (C27_nan_blocks). NaN offered later is ignored (C27_numeric)."
 },
 "C28": {
  "note": "C28_at_least_one for every arithmetic that counts exactly to B (hypothesis CountsTo; f64 has B = 2^53); normalisation and window in exact arithmetic."
 },
 "C30": {
  "note": "Poisson draw abstract: the bounds hold for any count it returns; poisson_sample is modelled in Model/Random."
 },
 "C31": {
  "note": "DEFECT in the code: NaN adjusted cost when exp overflows and cost is zero (C31_nan_adjusted). slice::sort_by is any function meeting its documented contract (structure SortBy)."
 },
 "C32": {
  "note": "DEFECT in the code: rounding can select a zero-weight last index (C32_zero_weight_binary64)."
 },
 "C33": {
  "note": "The rejection branch of sample_indices takes a fuel bound; all statements hold for every fuel."
 },
 "C39": {
  "note": "sqrt/powf/ln/cosh abstract with sign and zero assumptions (LossLib.Sane, proved for the real functions); textbook formulas over the reals."
 },
 "C40": {
  "note": "DEFECT in the code: all-zero weights give loss 0 to every expression (C40_zero_weights); NaN targets with eps-insensitive loss (C40_nan_targets)."
 },
 "C41": {
  "note": "f64 overflow counterexample C41_overflow_binary64; failed evaluations: C55."
 },
 "C56": {
  "note": "Over the reals, exact arithmetic."
 },
 "C38": {
  "note": "DEFECT in the code: progress is lost when the budget runs out inside a line search (C38_progress_lost)."
 },
 "C34": {
  "note": "DEFECT in the code: leaf early return and rotation never disabled (C34_exceptions). The kind drawn: C34_chosen (any rounding), C34_chosen_exact (exact arithmetic, both directions), C34_optimize_at_zero_weight (exception in f64)."
 },
 "C35": {
  "note": "DEFECT in the code: all-zero conditioned weights panic (C35_exhausted); simplified children keep the parent loss (in GenSpec.scored)."
 },
 "C36": {
  "note": "DEFECT in the code: tournament_selection_n = 0 (C36_cycle)."
 },
 "C58": {
  "note": "DEFECT in the code: constraints not rechecked (C58_may_break_constraints). Never-fails is proved without constant optimisation; with it, results are partial-correctness (Post)."
 },
 "C43": {
  "note": "Rounding is IEEE binary32 (round to nearest even, modelled on rationals and proved lawful); DEFECT in the code for maxsize < 3 with warm-up (debug panic; release build wraps)."
 },
 "C49": {
  "note": "DEFECT in the code: a panicking task makes the multi-worker search wait for ever (C49_panic_hangs); the step-wise engine propagates the panic (Engine.step = none)."
 },
 "C44": {
  "note": "The two loops, channel and counters of run_scoped_search as a transition system with nondeterministic completion order; tasks are pure functions of what they capture."
 },
 "C47": {
  "note": "At least one population (initialisation panics otherwise)."
 },
 "C48": {
  "note": "DEFECT in the code: hall of fame may beat the reported best (C48_hall_may_be_better); an infeasible fallback best may stay (C48_fallback_may_stay)."
 },
 "C50": {
  "note": "DEFECT in the code: duplicates without skipping (C50_duplicates_without_skip), hall of fame shares ids (C50_hall_shares_ids)."
 },
 "C57": {
  "note": "DEFECT in the code: mini-batching panics (or evaluates nothing) unless the batch size equals the number of rows, because nothing resizes the prediction buffer before evolution (C57_evolution, C57_whole_search)."
 },
 "C51": {
  "note": "DEFECT in the code: the training set can be empty (C51_empty_train)."
 },
 "C61": {
  "note": "DEFECT in the code: an identifier does not determine an equation (C61_wrong_equation)."
 },
 "C62": {
  "note": "DEFECT in the code: C62_constant_target, C62_weighted_corr, C62_nonpositive_weights. sqrt is the real square root in the exact theorems."
 },
 "C54": {
  "note": "Output without colours; the text of a loss is assumed to have at most 11 characters."
 },
 "C63": {
  "note": "DEFECT in the code: C63_single_core. The semantics of rayon::scope and of the channel are part of the trusted model (Model/Pool.lean)."
 },
 "C64": {
  "note": "Holds for every hash function. CountsTo: member counts stay exact in f64 (true below 2^53). SmallSorts (needed only when the exponential of the frequency scaling overflows): the stable sort of the pinned toolchain sorts up to 20 elements by insertion and so returns whatever the comparison does; longer slices with NaN costs may make it panic."
 },
 "C65": {
  "note": "C65_baseline and C65_search_data hold for every rounding; C65_cost is in exact arithmetic."
 },
 "C66": {
  "note": "DEFECT in the code: C66_zero_weights. avg_y is public but not used by the search."
 },
 "C67": {
  "note": "Exact arithmetic, objectives that return finite numbers or fail; rounding errors are not modelled here (C38 holds for every rounding)."
 },
 "C68": {
  "note": "Exact arithmetic; the square root of the machine epsilon is any positive number q."
 },
 "C69": {
  "note": "DEFECT in the code: C69_hall_keeps_batch_loss."
 },
 "C70": {
  "note": "Both drivers are covered because every run of either is a History (ParRun.history, Engine.step_history)."
 },
 "C71": {
  "note": "DEFECT in the code: C71_repeated_arity. Arithmetic is stated over the reals."
 },
 "C72": {
  "note": "The exponential is any function with the listed properties (ExpLike). Finding: evaluations spent on a candidate without finite cost are dropped from the count (Verdict.unscorable)."
 },
 "C73": {
  "note": "The proviso on identifiers is needed: C61_wrong_equation shows a session in which another equation's values are returned. The CSV reader and the JavaScript conversions (which silently replace unreadable options by the defaults) are outside the model. A table of at most five rows with validation fraction 0.9 leaves no training rows (C51_empty_train); the sensible configuration excludes it."
 },
 "C74": {
  "note": "Integer and float draws of the generator are modelled as two streams (Model/Rand), so 'the same draws' means the same draws of each kind. How the stream of a seed is computed (fastrand) is not modelled."
 },
 "C75": {
  "note": "Removes the exception of C64 (a sampler that keeps rejecting) for means below 30: in f64 the product of draws in [0,1) shrinks by a factor of at most 1 - 2^-106 per step or is subnormal, so Knuth's loop ends (Proofs/Poisson, knuth_returns) within 2^150 draws, which is the fuel RustEnv grants the model's loop. One thread is excluded: C63_single_core proves that it hangs. What the configuration excludes is discussed with C64."
 },
 "C76": {
  "note": "Fairness is a hypothesis on the generator (FairFloats, FairInts in Spec/Prob; fairFloats_exist and fairInts_exist construct such generators), because fastrand's wyrand stream is deterministic. Exact arithmetic: with f64 weights the probabilities are off by rounding; C32, C69 and C75 say what holds under rounding. The sampler for means of 30 or more (PTRS) is abstract in the model and has no distribution theorem."
 },
 "C77": {
  "note": "Existence of draws only; their probability is not bounded below here. 'The same expression' is Writes (Spec/Reach): node by node the same feature, the same operator, or a constant of the same value; constants may be numbered differently."
 },
 "C78": {
  "note": "The normal variate of two draws is the abstract function E.normal (Box-Muller in the code)."
 },
 "C79": {
  "note": "Exact real arithmetic; ln, sqrt, cos are the real functions (NormalLib.OnReals). The other models take the generator as the parameter E.normal of two draws; its concrete form is normalOf."
 },
 "C80": {
  "note": "The drawing of the bar by indicatif and colours are outside the model; the three clock readings of SearchProgress::new are one. If the step-wise driver has nothing to do (no iterations or populations), the display is closed by the first call of step, not at the start."
 },
 "C81": {
  "note": "Exact real arithmetic (ln k! is the exact logarithm below 256 and the Stirling series above). The claim that the accepted rounds are exactly Poisson distributed is not made and is not true of the published constants: numerically the hat is exceeded by about 0.3% near the mode for means of 30 to 200."
 },
 "C82": {
  "note": "Existence of draws, not a probability. The operating-system order generator is universally quantified. Constants must be values of the normal sampler at two possible draws; trees with other constants are reached only approximately (by the constant mutation and the optimiser), which is not claimed."
 },
 "C83": {
  "note": "DEFECT in the code: pause followed quickly by start runs two loops and ends with `done` then `paused` (C83_two_loops, C83_finishes); a reset while running posts a late `paused` (C83_reset_paused); a panic in the loop is silent and blocks later starts (C83_panic_silent). The search object is an arbitrary implementation of its methods; C83_session, C83_session_counts and C83_sensible show that the modelled sessions meet the hypotheses."
 },
 "C84": {
  "note": "DEFECT in the code: a late `paused` after a reset leaves the status paused with no search (C84_late_paused); leaving the tab while running leaves the status running with an empty new worker (C84_remount); an evaluation of the old search arriving after a new initialisation is shown for the new one (C84_stale). Drawing, texts of errors and evaluations per second are not modelled."
 },
 "C85": {
  "note": "DEFECT in the code: a non-finite number misaligns the plot (C85_nonfinite); the parsed data are not invalidated by edits (C85_stale_text); columns chosen for one text persist (C85_stale_columns); empty cells are previewed as 0 (C85_blank). The tokenisers (PapaParse, csv) are not modelled: a text is given as lines of cells with what either side reads in them, assumed to agree on finite numbers (hypothesis Agree)."
 },
 "C86": {
  "note": "DEFECT in the code: lib.rs:192-194 replaces all options by the defaults when one of them cannot be read (C86_unsuitable, C86_lost). The header switch of an options object without one is read differently by the page and the session (C86_headers); this arises because serde-wasm-bindgen serialises a struct with a flattened field as a JavaScript Map, so that the spread of the defaults in sessionStore.ts:159 is empty (an assumption on that crate). What serde and serde-wasm-bindgen accept for each type is modelled from their documentation (natField ... FieldTy.accepts)."
 },
 "C87": {
  "note": "C87_ready, C87_done, C87_search and C87_possible hold for any sessions that do not panic and count down (C83); C87_page_ready and C87_page are for the sessions of web/wasm with binary64 arithmetic and options within the ranges of C75. That the page comes to rest at all under any fair schedule is C84."
 },
 "C88": {
  "note": "DEFECT in the code (C88_trapped): after parsing a narrower table (by two columns or more) stale entries of x_columns remain that have no checkbox, so every session is refused until the page is reloaded or a wider table is parsed. DEFECT in the code (C88_unticked): parsed by the Run tab only, the page shows no feature as chosen while all but the last column are used."
 },
 "C89": {
  "note": "DEFECT in the code (C89_uncounted): next_generation returns 0 evaluations when the attempts fail or the child's cost is not finite, although evaluations were made (mutate.rs:360-366, 389-395); the counter reported to the user is a lower estimate. The code adds the counts of one cycle as f64; in the model they are natural numbers (exact below 2^53)."
 },
 "C90": {
  "note": "The draws are ideal: independent 64-bit words (a raw integer draw is reduced modulo the size of the range, as everywhere in the model; with a uniform law on a common multiple of the ranges this is exactly the uniform draw fastrand promises); fastrand's generators are deterministic functions of a 64-bit seed. Stated for the step-wise driver; for the multi-worker driver when which task is received next is decided by a chooser that does not see the generators, or by a clock that sees the whole past and all that the tasks in flight draw and return (real threads finish in an order that depends on how long their computation takes); and for the multi-worker driver under every schedule at once, even one that knows all draws, when the populations do not exchange anything."
 },
 "C91": {
  "note": "Not worse is in the order of C46; it needs the evaluation counter below 2^64 as there (populations * population_size < 2^64). Timing (time limits, displayed rates) is not part of the state."
 },
 "C92": {
  "note": "DEFECT in the code: the unweighted mean loss divides a naive running sum by the number of rows, so with more than 2^24 rows of f32 it is wrong (C92_too_many_rows). Assumes that ln and powf return values of the float type and that the opposite of a value is one (proved for f32 and f64). A factor that commutes with rounding: every positive one in exact arithmetic; a power of two only as long as nothing over- or underflows, which as a hypothesis on all numbers no bounded format meets."
 },
 "C93": {
  "note": "DEFECT in the code: build_dataset standardises the layout of x only; `weights.as_ref().and_then(|w| w.as_slice())` is None for weights with gaps, so they are silently dropped (C93_weights_ignored, C93_exception), except in mini-batches. ndarray's as_slice, is_standard_layout and as_standard_layout are modelled from their documentation (ndarray is a dependency, not in /repo)."
 },
 "C94": {
  "note": "DEFECT in the code: phi_at returns None when the limit is reached, the `?` after the line search makes bfgs_minimize/newton_1d_minimize return None, and optimize_constants then drops both the point reached and the calls made (C94_exception, C94_uncounted)."
 },
 "C95": {
  "note": "C95_stepwise/C95_parallel hold in any arithmetic; C95_rows_* assume E.RT exact. Real limits of the code: sums are taken left to right without compensation, so row order matters in f64 (C95_order_matters_rounded); rows of weight zero still reject expressions (C95_zero_weight_counts)."
 },
 "C96": {
  "note": "DEFECT in the code: the standard deviation of a constant column can be shown as NaN and its mean above its maximum (C96_constant_column_rounded, EnterData.tsx:82-84); paused time counts in the evaluations per second (C96_pause_counts). Mean, deviation and speed are proved in exact arithmetic."
 },
 "C97": {
  "note": "DEFECT in the code: if the sum of the weights overflows to infinity, MeanLoss reports loss 0 for finite weighted losses (C97_weights_overflow). The predictions are those the evaluator computes; their own rounding errors are not bounded. The bound for the root assumes a correctly rounded square root (SqrtPrecise). DEFECT in the code: log-cosh is computed as ln(cosh r), which is infinite from |r| = 713 on (C97_logcosh_overflow, for a library whose cosh overflows where the real cosh leaves the range of f64, cosh_beyond). Lp (uninterpreted powf) and log-cosh below that have no bound; the epsilon-insensitive loss cannot have a relative one (C97_epsilon) and has one relative to the mean distance plus epsilon (C97_epsilon64, C97_epsilon32)."
 },
 "C98": {
  "note": "Expressions in the hall of fame and the reported best may differ among those of equal cost or loss (first come, first kept); the statement is therefore about costs and losses there. With migration the schedule matters: C98_migration_depends_on_schedule."
 },
 "C99": {
  "note": "The hypothesis Roles.Runs says that every operation of the row has a finite result that does not underflow; operators that need a mathematical library are not covered. The preset ids are an instance (preset, elementary_read)."
 }
}