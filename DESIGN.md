# Design of the Lean model of astroautomata/symbolic_regression.rs

Code: `/repo` (Rust workspace: `dynamic_expressions`, `symbolic_regression`, `web/wasm`).
The code is read as text; nothing is built or run. Model: `/verif/lean/Verif`.

## Layout

* `Verif/Spec/*`   small, code-independent specifications (expression trees, their recursive meaning, size,
  depth, chain rule, permutations, ...). These are what the English properties talk about.
* `Verif/Model/*`  the function-by-function model of the Rust code. Every definition cites file:lines.
* `Verif/Proofs/*` helper lemmas.
* `Verif/Props/*`  the property theorems (one file per area) with `example`s showing hypotheses are satisfiable.

## Modelling conventions

* **Panics** are values: a function that can panic returns `Option`/`Except`; `none` = panic. Theorems say when it
  is not `none`.
* **Integers** `u8/u16/usize` are `Nat`. Where the Rust code has an explicit limit (u16 index checks, `checked_add`,
  saturating adds) the limit is modelled as a guard. `usize`/`u64` wrap-around is not modelled unless stated.
* **Scalars** (`T: Float`): the evaluator, constant folding, crossover etc. are modelled over an arbitrary type with
  uninterpreted operations, so the theorems hold bit-for-bit for f32/f64 whatever IEEE does. Where a property needs
  order only, we assume exactly what IEEE `<` satisfies (irreflexive, transitive), with NaN allowed. Where a property
  is about exact arithmetic (combining operators, statistics, losses, derivatives) the model is instantiated with an
  ordered field or the reals and the theorem is about exact arithmetic; rounding is outside the model.
* **Floating point with order and arithmetic** (costs, losses, statistics, probabilities): `Spec/Float.lean` defines
  `Fl K` = NaN | -inf | finite `x : K` | +inf with the IEEE comparison rules, and `Rounding K`, a rounding function
  applied to the exact result of every `+ - * /`. Theorems hold for every rounding, for every lawful (monotone,
  idempotent, NaN-free) one, or for `Rounding.exact`; which one is visible in each statement. `Spec/Binary64.lean`
  defines round-half-even binary64 over the rationals. The sign of zero is not modelled; `exp`, `ln`, `sqrt`,
  `floor` are arbitrary functions (`Libm`).
* **`slice::sort_by`**: any function meeting its documented contract (`SortBy`): a permutation; the stable sort for
  consistent comparisons; unspecified order or a panic otherwise. The hypothesis `SmallSorts` (it returns on at most
  20 elements whatever the comparison does, as the pinned toolchain's insertion sort does) is used only in the case of
  C64/C75 where the exponential of the frequency scaling overflows.
* **Randomness**: an RNG is an arbitrary stream of draws; theorems quantify over all streams, so they hold for every
  seed and every generator. Distributional claims are not made except where stated as measure-of-draws facts.
* **Mutation through `&mut`** becomes returning the new value. **Loops** become structural recursion/folds.
* **Threads/channels**: the scheduler is a transition system whose nondeterminism is the completion order; theorems
  quantify over every run.

## Plan per property

| id | model | proof idea |
|----|-------|-----------|
| C01 | `isValidPostfix` over node lists | induction; parser from lists to trees; uniqueness by cancellation |
| C02 | `treeMapreduce`, `countDepth`, `subtreeSizes`, ... | stack-machine correctness lemma by induction on the tree |
| C03 | `compilePlan`, `evalPlan` with slot file | simulation: stack entry `Src` denotes the subtree's column; live slots distinct and not free |
| C04 | same | flag = conjunction over the instructions = conjunction over the tree's operator nodes |
| C05 | same | allocation invariant (live/free slots disjoint, below `next`) |
| C06 | `EvalContext` state machine | refinement to fresh evaluation when hash injective on history (partial); pigeonhole counterexample for any 64-bit hash |
| C07 | `evalDiff` | simulation, as C03, on pairs; once with the zero laws, once for every scalar type (`chainDir`) |
| C08 | `evalGrad` with all branches | simulation, per direction; once with the zero laws, once for every scalar type (`chainSkip`); disagreement of the two evaluators in binary64 by computation |
| C09 | C07/C08 at `ℝ` | structural induction with Mathlib `HasDerivAt` composition |
| C10 | table of builtin ops over `ℝ` | Mathlib calculus, one lemma per operator |
| C11 | `getScalarConstants`, `setScalarConstants` | list induction |
| C12 | `compressConstants` | fold invariant on remap table |
| C13 | `simplifyTree` | stack simulation |
| C14 | `combineNode` on arena | structural induction over commutative ring; negation witness for id clash |
| C15 | both | structural induction |
| C16 | `applyPostfix` | concatenation of serialisations |
| C17 | `stringTree`, `stripOuterParens` | balancedness induction; unique readability |
| C18 | `lookup`, `lookupWithArity` | list filter reasoning |
| C19-C22 | each mutation on node lists | tree contexts: postfix list = pre ++ subtree ++ post |
| C23,C24 | fused checker | stack simulation vs recursive spec |
| C25-C27 | `consider`, `paretoFront` | invariants over histories; negation witness for NaN |
| C28 | statistics over ordered field; the f64 normalisation against the exact shares | invariants; rounding-error induction over the sum |
| C29,C30,C31,C32,C33 | population/migration/selection/shuffle | list lemmas over every stream |
| C34-C36 | mutate/next_generation/evolution | invariants over every stream |
| C37,C38 | optimiser drivers | invariants, objective is an arbitrary function |
| C39-C43 | losses, cost, batches, warm-up | ordered field algebra |
| C44-C50 | scheduler transition systems | invariants over every schedule, negation witnesses |
| C51 | `makeSplitIndices`, `selectRows`, `splitTrainVal` | permutation lemmas of the shuffle; witness for the empty training set |
| C52 | `fromNames`, `fromNamesByArity`, `sampleArity`, `sampleOp` | list lemmas over every name list and stream |
| C53 | `mutateConstant` | case analysis on the draws; Lebesgue measure of the flipping draws |
| C54 | `wrapEquation`, `truncateToWidth`, `formatHall` | the wrapped pieces concatenate to the equation; loop invariants on byte offsets |
| C55 | `Member.evaluate` with plan, scratch buffers and loss | composition of C03/C04 with the loss; `memberLoss` of the tree is the specification |
| C56 | `MeanLoss::dloss`, constant gradient | Mathlib `HasDerivAt` for each loss; composition with C08/C09 (values of `evalGrad` are erased to one direction at a time in Proofs/GradErase) |
| C57 | `evaluate` on a batch with a full-data evaluator | the length check fails / evaluates nothing; a witness run |
| C58 | `optimizeAndSimplify` | every member is re-evaluated; uses C55 |
| C59 | `ParRun`, `Engine.step` | one inductive invariant (`Sound`) through init, evolve, optimise, apply, migrate |
| C60 | `buildFullDataset` | list lemmas; the specification is the requested table |
| C61 | `findMemberById`, `evalMemberOnDataset` | C59 gives that shown equations are evaluable; f64 witness for the wrong equation |
| C62 | `computeMetrics`, `r2AndCorr` | exact arithmetic over the reals against textbook formulas |
| C63 | `PoolStep` (threads of the pool, tasks, channel) | invariant + decreasing measure; a one-thread witness that is stuck |
| C64 | the whole search | `Rand.Total` (no panic and the postcondition) through every function; `SamplerStuck` is the only exception left |
| C65 | `baselineLoss`, `tagged`, `loss_to_cost` | C06 on the zero expression gives the predictions; any rounding |
| C66 | `newDataset`, `newWeightedDataset`, `computeAvgY` | list sums in an ordered field; least squares by completing the square |
| C67 | `bfgsMinimize` on flat arrays | refinement to a textbook loop on Mathlib matrices (Spec/Bfgs); SPD invariant |
| C68 | `newtonMinimize` | symbolic execution of two iterations for all coefficients |
| C69 | `taskBody` with batching | C36 on the batch, C42, C58; a whole run in exact rationals for the hall of fame |
| C70 | `Shared.apply`, `migrations` | invariant over `History`: the migrant pool is the cheapest part of the population last returned |
| C71 | `OpSetDecl` (declaration, ids, metadata, dispatch, constructors, builder, custom fields) | induction over the blocks; dispatch and enumeration agree; `Means` for constructed expressions through C01/C03 of the flat form |
| C72 | `acceptProb`, `temperatureAt`, `generationWith`, `srCycle` | inversion of the run into the relational `Verdict` (Spec/Accept); textbook probability in exact arithmetic; monotone rounding for the schedule |
| C73 | `Session.open/step/bestEquations/evaluate/calls`, `WebRequest.options`, `parseU64` | case analysis of opening; induction over the calls reduces a session to one `Engine.step` (C45), then C26, C59, C61, C64, C17 |
| C74 | `Rng`, every `Rand` function of the model, all drivers | class `Rand.Consumes` (takes draws from the front, local) with an instance for every random function, by induction on their loops; then induction over histories and runs |
| C75 | `SOptions.default`, `RustEnv`, `Sensible`, `FewMigrants` | the configuration of C64 is derived from ranges (sums and products in binary64 by monotonicity of rounding); Knuth's loop by a shrinking product; streams by C74; defaults by evaluation |
| C76 | `streamOf`, `FairFloats`, `FairInts`, `Returns` (measure theory of Mathlib) | intervals of the float draw by C32; the tail of a product of uniform draws by induction with an integral; shuffles by the bijection between draws and orders of C33; rejection sampling by counting draw sequences and renaming candidates |
| C77 | `Rand.Reaches`, `Writes` (Spec/Reach) | induction on the target tree: from any leaf of the partial expression the generator can grow the wanted subtree, children from left to right, without touching the rest; then compression and the constraint check preserve it |
| C78 | `startPoints`, `BestRun`, `fitObjective` (Spec/Restarts) | exact run of the noise generator; the objective does not depend on the buffers; induction over the list of runs from the end: the best point kept is the first best run |
| C79 | `normalOf`, `standardNormal` (Model/Normal) | Box-Muller: two one-dimensional changes of variables, polar coordinates and Fubini (Mathlib), then independence of the draws |
| C80 | `Display`, `Display.applied`, `Engine.stepShown` (Model/Display) beside the two drivers | invariant of one cycle (marks, window, message), lifted to runs with `C44_complete` and `stepOne_spec` |
| C81 | `ptrsCandidate`, `logFactorial` (Model/Ptrs), `poissonSample` | exact values of the constants; independence of the pairs of draws of different rounds, geometric series; the tail of a product of draws for means below 30 |
| C82 | `Engine.step`, `Task.run`, `Shared.apply`, `evolStep`, `nextGeneration` | what a random computation can return whatever comes afterwards (`Reaches`), composed through the passes, cycles, tasks and steps; a computation that is total and consumes finitely many draws can return something; the default weights by evaluating binary64 in the kernel over all 290 conditioned weight vectors |
| C83 | `Worker.on`, `Worker.run` over an arbitrary `Wasm`; `sessionWasm` | a specification that knows only the present search and the messages (`Tells`), simulated by every event; the invariant that a running worker has a search and a waiting loop; a count of the passes left; `sessionWasm` meets the hypotheses by C73, C75 and C46 |
| C84 | `Page.on`, `Page.run` (view, worker, two queues of messages) | an invariant that every message on the way and everything shown comes from a search made for a clicked request; an invariant that follows the status through the queues to the last message that sets it; a well-founded induction on the work left (messages, loops, initialisations) for termination |
| C85 | `pageParse`, `sessionRead`, `DataTab.run`, `gatherAt`, `gatherPairs`, `sortXY` | both readers are maps over the same cells; on finite tables the filters of the page keep everything, so that gathering by the indices of the split gives the columns of C60/C51; histories of edits by induction |
| C86 | `JsObj`, `readable`, `effective`, `webRequestOf`, `wasmNew` | a field can be read exactly if its value suits the type (case analysis), so that the reading succeeds exactly if all suit; each field of the session then by C73; the two exceptions on concrete tables, for all streams |
| C87 | `Page.run`, `pageWasm`, `wasmNew`, `Session.step` | invariants over all schedules: what is under way after Initialise, and after Start, until nothing is; the object only goes on (`Wasm.Later`); with C83, C84, C86, C45 the session of the message and its final state |
| C88 | `Form`, `Form.on`, `Form.run`, `toggleInList`, `keepFeatures`, `columnsPatch` | invariant of the choices over all events; `lookup_with_arity` of every listed name computed by the kernel; the exceptions by an invariant of the stale feature |
| C89 | `SOptions.cycleCalls`, `Shared.Counted` over the whole search model | call counts of the minimisers for every outcome (`OptM.Cost`), postconditions of all random functions, invariant over histories; attained bounds computed by the kernel |
| C90 | the whole search model over `Draws.rng`, the product measure `Draws.law` on all draws (Mathlib's `Measure.infinitePi`) | what a computation has consumed is independent of the rest (`markov_le`, `markov_ge`: stopping-time argument over cylinders); lower bound of one pass = product of the bounds of its draws, minimum over the finitely many weight tables; upper bound of missing by induction over the cycles; with several workers, the same induction over the events of the driver, a chooser deciding which task is received - or a clock that knows what the tasks in flight draw, the draws of a task being exposed when it is dispatched; without exchange, under every schedule, through C98 and C64 |
| C91 | both drivers of the search model with two iteration counts (`Shared.SameSoFar`, `Engine.SameSoFar`, `Par.SameSoFar`) | simulation: without warm-up no function of a cycle reads the total; step-wise by induction over the cycles, multi-worker by induction over the events in both directions; not worse from C46 along the rest of the longer run |
| C92 | the whole search model on two data sets that differ only in the weights (`Dataset.Alike`, `Shared.Alike`, `Engine.Alike`, `Par.Alike` in Spec/Weights.lean) | the losses and derivatives of all predictions agree (`loss_ones`, `dloss_ones`, `loss_scaled`, `dloss_scaled`); every function of a cycle is equal on data sets with equal losses (`*_reweighed`); mini-batches stay related row by row; simulation of both drivers; saturation of the f32 sum by induction over the rows |
| C93 | arrays as stored (buffer, offset, strides): `Arr1`, `Arr2`, `buildStored`, `StoredDataset.read`, `resample` in Model/Stored.lean; the numbers in an array are what indexing shows (Spec/Stored.lean) | `as_slice` of a gap-free array is its numbers, of another one nothing; row-major copy read back by `feature * n_rows + row`; the batch loop by induction; a concrete pair of weights for the exception |
| C94 | the minimisers of Model/Optim.lean with and without `fCallsLimit` | relation `CutAt` (same outcome, or nothing with the limit reached) through the halving loop, the backtracking loop and the iterations, by induction; `AgreeBelow` (calls never decrease, equal as long as they stay below the limit) for a limit that is not reached; C78 for the count; a concrete run for the exception |
| C95 | the whole search of Model/Search.lean on two data sets (Spec/Rows.lean: `SameVerdicts`, `Dataset.mass`) | a relation between the two executions (equal but for scratch memory, with derivative contexts that hold plans for the same expressions) through evaluation, gradient, minimisers, evolution, tasks and drivers; exact losses and gradients as weighted sums over rows in a commutative monoid of extended numbers, which depend only on the totals per row (induction on the rows); concrete f64 sums for the exception |
| C96 | `columnSummary`, `inspectPlot`, `Speed.on` in Model/PageStats.lean; finite cells, mean, variance, measured speeds in Spec/PageStats.lean | fold over rows = fold over the finite cells of a column; invariant (least, greatest, sums); the variance identity in a field; the references as a function of the snapshots by induction on the history; a concrete f64 column for the exception |
| C97 | `meanLoss` with the rounding of Spec/Binary64.lean; relative error and exact means in Spec/Accuracy.lean | `y` is `x` up to `k` roundings (`Near`), closed under sums, products and one more rounding; thresholds keep everything in the normal range (monotone rounding fixes powers of two); Bernoulli for the simple bound; Huber's branches agree at the threshold up to three roundings (Props/AccuracyMore.lean); the epsilon-insensitive loss by absolute errors `u (|x| + ε)` of each rounding, subnormal numbers included (Props/AccuracyEps.lean); weights in any format (Props/AccuracyWeighted.lean); more gradients in Props/AccuracyGradient.lean; log-cosh by monotone rounding and `exp 1 > 2.7182818283` (Props/LogCosh.lean); C59 for the best member; concrete sums for the exceptions |
| C98 | both drivers (Model/Search.lean, Model/Pool.lean); the life of one population on its own, `stage` and `ownResult`, in Spec/Isolated.lean | a task does not read the statistics when the switches are off; invariant of `ParStep`: each population is at a stage of its own life, the applied results are those of distinct (iteration, population) pairs; at the end all pairs, so two runs have the same results up to order; evaluation count, best (C48) and hall of fame (least cost per slot) do not depend on the order; C47 for the step-wise driver, C63 for pools; two concrete schedules for the exception |
| C99 | the recursive meaning (C03) in binary64/binary32 against the exact value; runs without overflow or underflow as an inductive predicate (Spec/EvalAccuracy.lean) | running error analysis by induction on the run: absolute, relative to the size without cancellation; relative, for positive expressions |

## Layers of the search model

1. *Float layer* (`Fl K`, `Rounding`), *random layer* (`Rand`: a reader of two raw streams that can panic; `Post` =
   partial correctness, `Total` = additionally no panic).
2. *Member layer* (`Model/Member`, `Model/ConstOpt`): a member with its compiled plan; evaluators with their scratch
   memory and cached plan are threaded explicitly, because C06/C57 are about exactly that state.
3. *Evolution layer* (`Model/Evolve`): `next_generation`, `crossover_generation`, `reg_evol_cycle`, `s_r_cycle`,
   `optimize_and_simplify_population`.
4. *Search layer* (`Model/Search`): `Shared` is the driver's state, `Task` what a spawned closure captures.  The
   step-wise engine is a function (`Engine.step`); the parallel driver is a transition system (`ParStep`) whose
   nondeterminism is the order in which tasks finish.  `Model/Pool` refines it with threads of the pool.
5. *Interfaces* (`Model/Web`, `Model/Progress`).

Deterministic steps that the Rust code performs with a private RNG use the stream stored in the state, so a theorem
about "every stream" covers every seed and every generator.

## Trusted base

* Lean's kernel. The axioms of the theorems are at most `propext`, `Classical.choice`, `Quot.sound` (vcheck replays
  every module through the kernel and reports others). No `sorry`, no `native_decide`, no `bv_decide`, no own axioms.
* The reading of the Rust code into the model, cited per definition.
* External contracts that are assumed, each visible as a structure or parameter in the statements:
  `slice::sort_by` (`SortBy`), `fastrand` (arbitrary streams), `rayon::scope` and `std::sync::mpsc` (Model/Pool, the
  rules of `ParStep`), `f64` arithmetic (`Rounding`; correct rounding for the binary64/binary32 instances),
  mathematical library functions (arbitrary, or the real functions in the exact theorems; what is assumed of their
  signs is `LossLib.Sane` and `Libm`).
* Concrete settings in `Spec/Demo.lean` are only used in `example`s and in refutations (`_counterexample`-like
  theorems), where they are part of the statement.

### What is modelled, per source file

| file | modelled | not modelled |
|------|----------|--------------|
| dynamic_expressions/src/node.rs, node_utils.rs, compile.rs, utils.rs, simplify.rs, strings.rs | all functions | `Display` glue, number formatting (an argument) |
| evaluate.rs, evaluate_derivative.rs, dispatch.rs | all evaluators, kernels, contexts | SIMD/`loop unrolling` details (same values), generics dispatch |
| operator_enum.rs | the 40 built-in operators over the reals (Model/Builtin), the `opset!` declaration (Model/OpSetDecl) | token-level macro parsing |
| traits.rs, operators.rs (both crates) | lookup, operator selection, typed builder, sampling | error texts |
| expression_algebra.rs | `__apply_postfix`, constructors and overloads with literals (Model/OpSetDecl) | the panic text |
| mutation_functions.rs, mutate.rs, check_constraints.rs, complexity.rs, random.rs, selection.rs, migration.rs, population.rs, hall_of_fame.rs, adaptive_parsimony.rs, warmup.rs, regularized_evolution.rs, single_iteration.rs, constant_optimization.rs, optim.rs, loss_functions.rs, pop_member.rs, dataset.rs | all functions | `bench.rs`, tests (the trait `LossFn` is private to the crate, so a user can only choose among the losses modelled) |
| search_utils.rs | both drivers, initialisation, tasks, application of results | memory reclamation (the progress display is in progress_bars.rs below) |
| options.rs | the fields read by the above, the defaults | (de)serialisation |
| progress_bars.rs | wrapping, table text, messages, speeds and their timing, without colours | colours, number formatting, drawing by `indicatif` |
| web/wasm/src/lib.rs | table to data set, split, lookup/evaluation of members, metrics, sessions (opening, stepping, replies), reading of the options | CSV tokeniser, conversion of results to JavaScript |
| web/ui/src/worker/srWorker.ts, protocol.ts | the message handler, the loop and its waits, over any search object and over the modelled sessions | console warnings, thread-pool size, texts of errors |
| web/ui/src/app/panes/searchSolutions/useSearchController.ts, ControlsCard.tsx, web/ui/src/state/sessionStore.ts (runtime), web/ui/src/worker/srWorkerClient.ts | the handlers, buttons, the effect that keeps an equation selected, and the queues of messages in both directions | drawing, CSV text, texts of errors, failure to load the metadata (evaluations per second: Model/PageStats.lean) |
| web/ui/src/state/sessionStore.ts (data), plotUtils.ts: sortXY, useSearchController.ts (plots); web/wasm/src/lib.rs: parse_csv_to_rows | the reading of rows from cells, the defaults of columns, the pairing of predictions with data | the tokenisers PapaParse and csv, drawing (column statistics and inspection plot of the preview: Model/PageStats.lean) |
| web/ui/src/state/sessionStore.ts (options), ModelingTask.tsx, EnterData.tsx (inputs of options); web/wasm/src/lib.rs: WasmSearchOptions and its reading | the options object, its patches, what each field takes, the fallback to the defaults | serde and serde-wasm-bindgen themselves (assumed as in Model/PageOptions.lean), drawing, big integers |
| web/ui/src/app/panes/EnterData.tsx, ModelingTask.tsx (choice of columns and operators), sessionStore.ts: toggleOp, applyPreset | the handlers of the selects and boxes, which are shown and disabled, the preset `basic` | drawing, the presets no button uses, the order in which operators are shown |
| proptest_utils.rs, benches, examples | | test support only |

Integers are unbounded unless a limit is stated (u16 constant indices, u32/u64 ids in C50, usize saturation in C24).
Out-of-memory, stack overflow and time are outside the model.
