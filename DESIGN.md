# DESIGN - a Lean 4 model of laudv/bitboost

## 1. What is modelled, and in what style

The source (`/repo/src`, Rust) is transcribed function by function into total, computable Lean
functions. Each definition carries the file and lines it models and says where it simplifies.

* `Verif/Model/*.lean`   - the model (definitions only).
* `Verif/Spec/*.lean`    - the small independent vocabulary used in theorem statements.
* `Verif/Lemmas/*.lean`  - helper lemmas and proofs.
* `Verif/Props/*.lean`   - the property theorems (one file per area), each followed by a
  non-vacuity `example`.

Conventions

* A Rust function that mutates through `&mut` returns the new value.
* `Out a = ok a | panic | ub`: `panic` is a Rust panic (`assert!`, slice index, checked
  arithmetic), `ub` is an access outside the memory the code is entitled to (`get_unchecked`,
  raw pointers) or a read of uninitialised memory. A theorem whose conclusion is `f x = .ok y`
  therefore also says that the call neither panics nor touches foreign memory.
* A 256-bit block is `BitVec 256` (32 little-endian bytes); arrays of blocks are lists.
* `usize`/`u32`/`u64` quantities are `Nat` unless the property is about overflow; where the code
  depends on a width (lane counters, `u32` slice ranges, `as u8` casts) it is explicit.
* `NumT = f32`: an abstract number type with an `FP` structure of operations. Theorems are either
  for every such structure (bit-exact statements) or for exact rational arithmetic; each says
  which. Counter-examples involving rounding use a concrete IEEE binary32 instance.
* Random generators, callbacks and thread schedules are universally quantified parameters.

## 2. Properties: what is modelled and how it is proved

* **C01 Bit writes are exact and isolated** - Model/Bits: byte-level `getBit/enableBit/disableBit/setBit` on `BitVec 8` inside `BitVec 256`, lifted to lists of blocks. Prove by bit extensionality; out-of-range index = panic.
* **C02 Disabling a bit of a Bitset clears it** - Model/Bits `Bitset.disableBit` as written (it calls `enable_bit`). The property is false of the code: prove the negation, and what the call really does.
* **C03 An n-bit 'all ones' vector has exactly the first n bits set** - Model/Bits `oneBits` with the u64 trimming loop (recursion on remaining words). Prove bit i of the result = (i < n) by case analysis on zeros/64.
* **C04 Building a bit vector from an iterator is a round trip** - Model/Bits `fromBoolIter`, `fromIter` consuming a list as iterator. Induction on blocks.
* **C05 Reinterpreting views agree bit for bit** - Generic `word w`/`setWord w` views; bit-extensional lemmas.
* **C06 Population count is the number of set bits** - BitBlock.count_ones as sum of four u64 popcounts; SIMD `count_ones` via C18 machinery.
* **C07 Index iteration lists exactly the set bits, in order, once** - Model/IndexIter: the iterator state machine (`next`), generic in word width, mask function, index function. Prove the m-th call of `next` returns the m-th element of the specified list.
* **C08 Compressed iteration lists exactly the represented examples** - Same state machine with u32 words and an index vector.
* **C09 Callback iteration visits the same indices and stops on request** - Model the callback loops with a stateful callback (fold with early exit).
* **C10 Live allocations of a slice store never overlap or leak into each other** - Model/SliceStore: buffer + free list + slice_ends. Invariant: live and free full ranges are pairwise disjoint; refinement to a map handle -> array over arbitrary operation lists.
* **C11 A new allocation has the requested length, alignment and initial content** - Part of the same refinement (initial contents), plus an alignment invariant.
* **C12 Two mutable slices handed out together are disjoint** - Model `get_two_slices_mut` (split_at_mut arithmetic); prove success implies disjoint.
* **C13 Histogram subtraction yields parent minus child, per feature and bin** - Model/HistStore on top of SliceStore; elementwise loop of hists_subtract.
* **C14 Bit-sliced values read back what was stored** - Model/BitSlice: get_value/set_value with the real index arithmetic; prove the address map injective for w in {1,2,4,8}.
* **C15 Gradient discretisation is monotone, clamps, keeps the end points and has bounded error** - Model of set_scaled_value/linproj for any rounding mode, with round-half-away; prove the half-step bound exactly over the rationals and, for binary32, with the explicit extra error of its four roundings (C15_half_step_f32).
* **C16 Copying a super-block between bit slices copies exactly these values** - copy_block_from over the same address map.
* **C17 Masked sums of a bit slice are exact** - sum_masked as weighted popcounts; interchange of sums.
* **C18 Conjunction counts are exact, compressed or not** - Model/Simd: Harley-Seal accumulator over lanes with explicit lane width; invariant of the carry-save adder.
* **C19 The SIMD gradient sum over uncompressed masks is exact** - Same accumulator with per-width load functions and reduce weights.
* **C20 The SIMD gradient sum over compressed masks is exact** - Same with gather loads.
* **C21 The second set of counting and summing kernels is exact too** - Model/Simd (namespace CountSum): same accumulator lemma, other load functions.
* **C22 The doubly compressed kernel joins index vectors correctly** - Merge-join loop; induction on the sum of the remaining lengths, strictly increasing index vectors.
* **C23 The public safe API never reads outside an allocation** - Out.ub results: prove absence for the functions that check, concrete witnesses for the safe functions that do not.
* **C24 Binning conserves examples and respects order** - Model/Binner for every rounding (in particular binary32) where it holds, otherwise exact rationals; floor/clamp arithmetic.
* **C25 Rank queries on a binner find the right bin** - bin_with_rank loop; prefix sums.
* **C26 Approximate quantiles are within one bin width of the true quantile** - Order statistics of the inserted list vs. bin representative, in exact arithmetic; in f32 up to an explicit error (Lemmas/Quantile32).
* **C27 CSV import preserves the values, the limits and the cardinalities** - Model/Data: from_csv over records = lists of parse results.
* **C28 Column limits set through the C API bound the data** - set_feature_data folds; containment proved, attainment refuted with a witness.
* **C29 The number of bins per feature never exceeds the configured maximum and covers all categories** - max_nbins case analysis.
* **C30 Bagging draws the right number of distinct examples and features** - shuffle_first_k as Fisher-Yates with an arbitrary oracle; permutation invariant; sort; complement iterator.
* **C31 Feature masks mean what the split test means** - Model/Dataset update functions producing masks; characterise each bit.
* **C32 Each feature offers at most max_nbins split candidates, all valid** - Counting candidates in the same functions.
* **C33 High-cardinality categories are ordered by their own gradients** - Model update_hicard as written (`grad[i]`); false under bagging: negation + partial theorem without bagging.
* **C34 Resampling follows the configured schedule** - Dataset.update guard on iteration % sample_freq.
* **C35 Training and prediction route an example the same way** - Combine C31 with the tree split test.
* **C36 Prediction always reaches a leaf within max_depth steps** - Model/Tree: heap-shaped arrays; invariant (children of split nodes exist) over split histories.
* **C37 Tree node counts are consistent** - Same invariant, counting.
* **C38 Unseen categories go right at equality splits** - Case analysis of the split test.
* **C39 A prediction depends only on the row** - predict = map of per-row prediction.
* **C40 Every active example ends in exactly one leaf and is updated exactly once** - Model/Learner: stack machine of train; invariant: every active example is in exactly one pending node or finished leaf, the examples of a node are in order, and the predictions of the pending ones are those before the tree.
* **C41 The booster's running predictions are the ensemble's predictions** - Induction over iterations using C40 and C35.
* **C42 Histograms hold the exact count and gradient sum of each candidate** - Histogram values over exact arithmetic; subtraction identity; refutation for min_examples_leaf >= 2; f32: an error bound for all objectives, exactness for hinge and absolute loss (whole-number sums, s/3*3 rounds back to s).
* **C43 The chosen split is the best admissible one** - find_best_split loop: argmax invariant; whole trees by the histogram invariant, with an error analysis of the gains for min_examples_leaf > 1 and for f32.
* **C44 Compression is only an optimisation** - compress_examples preserves the represented set; counts and sums equal by C08/C18/C20/C21.
* **C45 Parallel histogram building is deterministic** - Model/Parallel: small-step interleaving of the jobs with the mutex, panics and poisoning; invariant over all schedules; lifted to build_histograms and to whole tree training.
* **C46 Depth and size limits are respected** - Termination measure on the stack; depth of node ids.
* **C47 A boosting step does not increase squared training error** - Exact rational arithmetic; mean minimises squared error; convexity argument for lr in [0,2]. In f32 (Props/Single, Props/BoostSingle): the leaf value within an explicit bound of the exact one, and the loss of one iteration grows at most by an explicit bound on the rounding error.
* **C48 Gradients lie within the bounds announced to the discretiser** - Per-objective gradient bound; refutation for L2.
* **C49 Training starts from the objective's bias** - initialize definitions; in f32 the mean within an explicit error bound and the class priors rounded once.
* **C50 Every objective trains on every valid target column** - Refutation for constant targets (Binner assertion), partial otherwise.
* **C51 Metrics compute what their names say** - Metrics over exact rationals with sqrt/ln as parameters; the squared error and the log loss also in f32 within an explicit bound.
* **C52 Configuration parsing is faithful** - Model/Config on lists of characters.
* **C53 The C API is a safe state machine** - Model/CApi state machine over call sequences.
* **C54 Training state reuse is invisible** - The learner is modelled once more with its four slice stores (Model/LearnerStore.lean). Simulation of three runs: two contexts that hold the same slices and hand out the same ranges, and the learner on values.
* **C55 Node ids are checked against the tree** - Same tree model; false of the code: refutations, and a partial theorem for trees filled level by level. parent undoes the two child functions.
* **C56 Gradients are derivatives of the loss** - Subgradient inequality over exact rationals; log loss against the real derivative (Mathlib); refutation for Huber (sign).
* **C57 Absolute loss uses medians** - C26 applied to the quantile! macro; in f32 (Lemmas/Quantile32, Props/MedianSingle) within the bin width plus an explicit rounding error.
* **C58 Leaves are not smaller than min_examples_leaf** - Invariant of the stack machine of C40: parts of split nodes are at least as large as the histogram counts the split search checked.
* **C59 A training run makes exactly niterations trees** - Model/Boost.lean; induction over the iterations with C46.
* **C60 Metrics report the running predictions on schedule** - Induction over the iterations, with the list of what was printed as part of the state.
* **C61 Objective objects can be reused** - Relation between two runs whose objectives agree on the fields that are read; preserved by every function of the learner.
* **C62 Training and prediction are memory-safe for every configuration** - Every raw access of the model yields Out.ub outside its bounds; an invariant of the learner state (lengths of masks, index lists, bit slices) shows it is never reached.
* **C63 Pooled memory never changes the model** - Same simulation as C54: every slice a node refers to is held by its store with the right contents; refinement of the value-level learner, lifted to the booster.
* **C64 The command line program: errors, reports, and `tree` = one round of `boost`** - Model/Cli: main, parse, load_data, single_tree, boost, summary over files as arbitrary lists of records. `tree` = one round: the learner keeps shrinkage 1 and bias 0 and stores rounded values (invariant of the loop), so adding the bias in the tree or in the ensemble is one rounding of the same sum; the summary from C41 and C60; errors by an inductive specification of what can be wrong.
* **C65 The scikit-learn estimator trains and predicts what the library does, for any arguments and history** - Model/Python: the methods of RawBitBoost and of the estimator as clients of Model/CApi, with arrays, parameter values and exceptions. An invariant (session, live pointer, rows of the last matrix = rows in the library) through every method; fit by following the calls one by one with C52, C28 and C53; predictions depend only on the cells the trees ask for.
* **C66 The Python package reports errors and does not touch memory outside of arrays** - Same model. True part: object invariant over all sequences of proper calls, and what dealloc leaves. The rest is false: concrete runs (short target, matrix without rows, unknown objective, niterations=10.0, a number that is no category).
* **C67 The value of a leaf does not increase the loss of its examples** - Model/Objective leafValue, predictLeafValue. Absolute loss: a median minimises the sum of distances (counting), C57 gives the bin error. Huber: the loss is a Moreau envelope, so a full gradient step from the median decreases it. Log loss: closed form, and the second derivative in real analysis. A decrease when the step is at most twice the mean curvature, from the bound 1/4 on the second derivative; a counterexample beyond it. Hinge: pure leaves; mixed leaves by a concrete counterexample.
* **C68 Objectives and metrics are chosen by their names** - Table of names in Spec/Names; equality up to case as a relation on characters.
* **C69 Training succeeds on valid inputs** - Spec/Progress says what valid settings and data are and bounds the sizes of numbers. The dataset, the learner and the objectives are shown to end one function at a time (total correctness on top of the invariants used for C30-C46); sizes of sums, means, quantiles and leaf values are bounded with monotone rounding between representable powers of two. A whole run by induction, for the log loss in f32 for any number of iterations. Where the code panics although the input is valid: concrete runs.
* **C70 The parameters of the Python estimators are the settings of the library** - Model/ParamTable: the writer, the state machine of the csv reader, the dictionary, the defaults as Python literals and the constructor. The reader undoes the writer field by field (induction over the text); defaults reach the library through C65 and C52. Conversions between numbers and texts are hypotheses on six numbers.
* **C71 Numbers in texts are read exactly and rounded once** - Model/Text: parseF32 after the documentation of f32::from_str. Spec/Text defines decimal numbers as written (sign, digits, point, exponent) with their text and value; the parser is inverted part by part (sign, digits, fraction, exponent), which gives both directions of the equivalence.
* **C72 A table written as CSV text is loaded as it is** - Model/Text: the reader of the csv crate as a state machine. Spec/Text defines how a field, a record and a table can be written (relations, no reader). Induction over the written form with an invariant on the state of the machine; then C27 and C71 for the values.
* **C73 Samples are uniform** - Count the draws: the partial Fisher-Yates shuffle is a bijection between the draws and the lists of k different elements (induction over the draws), so a sorted sample has k! preimages; C30/C34 and the success of updates (C69) carry this to an update of a data set in any reachable state.
* **C74 The order of the training rows does not matter** - Simulation between the two runs: sums, folds of min/max, counts and bins are invariant under permutations, masks hold the same rows (C31), the reference learner (C44) sees the same histograms and chooses the same splits, and the leaves hold the same rows. Needs sums that do not depend on the order of the summands: exact arithmetic, or l1, whose gradients 1 and -1 have exact sums (up to 2^24) and whose leaf values are medians; refuted for f32 otherwise.
* **C75 What training depends on in the targets** - Simulation between the runs on two data sets with the same features (Lemmas/Targets): a relation between the two objectives that update, leaf values and out-of-bag updates keep, with equal gradients and bounds, gives equal trees. Instances: equality (values, and classes for hinge, any rounding); the bias and predictions moved by c (exact arithmetic: residuals do not change, means and histogram medians move by c). Targets in other units, l1 (Lemmas/Scale): the same simulation with a map of leaf values; signs of residuals do not change, so gradients and tests are the same, histogram medians are converted. For l2 and huber with categorical features only (Lemmas/ScaleGain, ScaleData, ScaleRun): gradients, bounds, histograms and sums are multiplied by a, gains by a*a, discretised gradients do not change, so the same splits are found. Concrete exact runs where l2 and huber make no split in other units because of min_gain, and where l2 with min_gain 0 takes another threshold of a numerical feature because of EPSILON in its weights. Concrete f32 runs where labels -1/1 or a constant of 2^22 change the model.
* **C76 Which settings a trained model depends on** - Each function of the model is shown to read only the listed settings (function by function, induction for the loops); runs with another random generator are related by a simulation in which only the generator differs; iterate (k + n) = iterate k then iterate n for the number of iterations. With sampling the seed matters: a concrete run.
* **C77 The units of numerical features do not matter** - Simulation between the runs on the two data sets (Lemmas/Units): the bins of values do not change because (x - min) / delta does not, bin representatives are converted, so the split candidates and the thresholds in the trees are the converted ones while masks, histograms, gains and leaf values are equal; tests are invariant because the conversion is strictly increasing. Exact arithmetic; concrete runs show that it fails in f32 and, for added constants, through the C API.
* **C78 A column with one value only plays no role** - Simulation between the runs with and without the column (Lemmas/Constant): the list of useful features is the same up to renumbering, so the same random numbers give the same sample of features; masks, histograms, gains and leaf values are equal and the feature numbers in the tests differ by the renumbering. For every rounding. Concrete runs show that another feature is needed and that the C API, whose limits include 0, can keep such a column.
* **C79 A smaller tree is a pruned larger tree** - Nodes derived from the root by findBestSplit and childNodes, whatever the depth (Lemmas/Prune): one node per number. Invariant of the loop: every split is the best split of the derived node, and every child of a split (and the root) is split, on the stack, on the last level, or has no split. findBestSplit with a larger min_gain finds the same split or none; the first trees of both runs are made from the same data set and objective. Induction on node numbers. Values: the same nodes at the level of the reference learner (Lemmas/PruneValues), so that a leaf both trees have has the same list of examples, and C40_leaf_values. Concrete exact runs for the second tree and for min_examples_leaf.
* **C80 The value of a leaf is made from the rows that end there** - Final state of the learner (train_final): every leaf has the list of its examples and a value that the objective gave for them (C40_leaf_values). Training partition and prediction agree where the data set is consistent (C47: consistent_categorical, _exact, _f32), so the list is the list of active rows that predict_leaf_id_of_example sends to the leaf. The running predictions are those of the ensemble (C41, boosting_predict). For squared loss leafValue is unfolded.

## 3. Trusted base

* **Lean's kernel** (4.33.0). Every theorem is checked by it. No `native_decide`, no `bv_decide`, no
  added axiom, no unfinished proof; the concrete cases beside the theorems use `decide`,
  `decide +kernel`, `rfl` or `simp`, all of which end in a kernel check.
* **Axioms.** `#print axioms` over the theorems of the manifest gives only `propext`,
  `Classical.choice` and `Quot.sound`, the three standard ones. Most theorems depend on all three
  (through Mathlib's rational arithmetic and the `omega`/`simp` tactics); the exact set for
  each theorem is in section 6.
* **Mathlib** definitions used in statements: `Rat`, `Real`, `HasDerivAt`, `Real.exp`, `Real.log`,
  `List.Perm`, `List.Pairwise`, `List.Nodup`, `List.sum`; everything else in a
  statement is core Lean or in `Verif/Spec` and `Verif/Model`.
* **The transcription.** That `Verif/Model` says what `/repo/src` does is not checked by a machine:
  the code could not be compiled or run here. It was written from the source text, with the lines
  cited at each definition.
* **Rust and hardware semantics** assumed by the transcription: release build (no overflow
  checks; where a debug build differs it is said at the definition), a 64-bit `usize`, saturating
  float-to-integer casts, little-endian memory, `safety_check! = assert!`, AVX2 intrinsics as in
  Intel's description, the IEEE-754 binary32 operations as correctly rounded (round to nearest,
  ties to even) rational operations.

### What is modelled

| source | model |
|---|---|
| `bitblock.rs`, `bitset.rs` | `Model/Bits` (all functions except `Debug`/`as_ptr`) |
| `bitslice.rs`, bit slices of `slice_store.rs` 775-1035 | `Model/BitSlice`, `Model/Discretise` |
| index iterators and `for_each_*` of `slice_store.rs` 540-775 | `Model/IndexIter` |
| `SliceStore`, `HistStore`, `BitBlockStore` | `Model/SliceStore` |
| `simd.rs`, `count_and_sum.rs` | `Model/Simd` |
| `lib.rs`, number type | `Model/Num` |
| `binner.rs` | `Model/Binner` |
| `config.rs` (parsing, defaults) | `Model/Config` |
| `data.rs` | `Model/Data` |
| `dataset.rs` | `Model/Dataset` |
| `objective.rs`, `metric.rs` | `Model/Objective`, `Model/Metric` |
| `tree/tree.rs` | `Model/Tree` |
| `tree/learner.rs` | `Model/Learner` (slices as values), `Model/LearnerStore` (slices in the pooled stores), `Model/Parallel` (rayon jobs and the mutex) |
| `boost.rs` | `Model/Boost` |
| `c_api.rs` | `Model/CApi` |
| `bin/run.rs` | `Model/Cli` |
| `src/config.rs` `write_doc_csv`, `bin/bitboost_gen_config_csv.rs`, `bitboost.py` `get_config_params`, `gen_init_fun` | `Model/ParamTable` (the csv reader of Python by its source; the literals that occur as defaults; conversions between numbers and texts are parameters) |
| `str::parse::<f32>` and `csv::Reader` as used in `src/data.rs:57-81`, `src/config.rs:76-86` | `Model/Text` (dependencies, after their documentation), `Model/Program` (the command line program with them) |
| `python/bitboost/bitboost.py`, `python/bitboost/sklearn.py` | `Model/Python` (methods of `RawBitBoost` and of the estimator; scikit-learn's checks by their documentation; not the search for the library) |

### What is not modelled

* `Debug`/`Display` output, `debug_print*`, the text of log lines (when metrics are
  evaluated and printed is modelled, how they look is not), elapsed times.
* The CSV tokenizer (`csv` crate) and float parsing (`str::parse::<f32>`) are not code of the repository. `from_csv` and the
  configuration are modelled for arbitrary parse results (an arbitrary function from text to numbers); `Model/Text` adds a model
  of both after their documentation (C71, C72). It leaves out the limit on exponents with tens of thousands of digits,
  byte order marks and delimiters that are not ASCII, and takes `inf` and `nan` in any case (current standard library).
* `rand`: the generator is an arbitrary oracle. That `gen_range` is uniform is not proved; C73 counts the draws that lead to each sample.
* rayon's scheduler: every interleaving of the jobs is allowed; work stealing order is not fixed.
* The allocator: allocation never fails, the capacity of a store is bounded by `u32` only.
* The benches; `tree/learn/*` (an unfinished stub: its private methods return the constant 0 and nothing calls
  them); the private
  loads `load_and3_w*_c01` (`count_and_sum.rs:376-379`), which nothing calls.
* The sign of zero (one zero), NaN payloads, and the time and memory a run takes.
* Thread safety of the C API (calls on one context from several threads are undefined there).

### Number semantics of the theorems

`FP` is a rounding function with a finite range. A theorem that takes `F : FP` holds for every
rounding, in particular for `FP.binary32`, which is IEEE single precision, defined in
`Model/Num`. `Spec/Ieee` states the standard without computing anything (nearest representable number, ties to the
even significand, overflow at 2^128; comparisons; conversions to integers), and `Props/Ieee` proves that the model
agrees with it: `ieee_rounding` (an equivalence, so the standard leaves no other choice), `ieee_representable`,
`ieee_closed`, `ieee_finite_ops`, `ieee_nan`, `ieee_inf`, `ieee_compare`, `ieee_min_max`, `ieee_signs`,
`ieee_floor_round`, `ieee_casts`, `ieee_of_nat`, `ieee_sum`. A theorem that fixes
`.exact` is about rational arithmetic; the manifest note says so and names the theorems that
bound what `binary32` changes. `sqrt`, `exp` and `ln` are arbitrary functions in the
model of objectives and metrics; C56 relates the log loss to the real derivative.

## 4. Properties that are false of the code

The following English properties do not hold of the program. For each the manifest lists a theorem
with `refuted` or `counterexample` in its name (a concrete run of the model) and what is true
instead (suffix `_partial`).

* C02 `BitSet::disable_bit` sets the bit (`bitset.rs` 49-53 calls `enable_bit`).
* C23 safe functions that read outside their slices (`count_and2_c10`, `count_and2_c00` with a short
  second argument, `get_unchecked`-based kernels, `sum_masked` with a large index ...).
* C28, C29 feature limits set through the C API always include 0 and never shrink when the
  data are replaced; the number of bins of a column follows the limits.
* C31, C35, C40, C41 numerical routing: training bins a value and compares bin numbers, prediction
  compares with the bin's representative. In `f32` the two can disagree for values next to a bin
  border, and NaN goes left in one and right in the other. Proved equal for exact arithmetic, and
  for `f32` for fixed-point columns and columns whose values keep away from bin borders.
* C33 `update_hicard_cat` uses `grad[i]` with the local index: with bagging the gradients of
  other examples are averaged.
* C42, C43 with `min_examples_leaf >= 2` the gradient sum of a candidate with fewer examples is stored
  as 0 (`learner.rs` 803-833), with the right count; the sums of the right sibling are derived by
  subtraction, so they can be wrong, and a worse split can be chosen. The size of the error is bounded
  (`C42_sums_min_partial`).
* C48 L2 discretisation bounds are those of the first iteration's gradients; later gradients and
  the binary objective's default bounds clamp.
* C50 L1 and Huber training panic on constant targets (binner assertion `min < max`).
* C69 hinge loss training diverges in `f32` with the default learning rate: three rows in one leaf, and the assertion
  that predictions are finite fails in iteration 13. Squared error with a high-cardinality feature panics in the
  iteration after a perfect fit (gradient bounds `(0, 0)`). A numerical feature with an infinite value, or read from
  CSV with only NaN, is accepted and makes training panic.
* C55 `is_valid_node_id` accepts ids that were never created; `split_node` on such an orphan is
  accepted.
* C66 `RawBitBoost` drops all return codes: after a failed training `predict` returns zeros, a parameter
  like `niterations=10.0` is ignored, a categorical column with a number that is no category is read
  only up to it. `set_target` with a short array, and `set_data` without rows, read out of bounds.
* C67 hinge: the value of a leaf with both classes is the mean of `y max(0, 2 - y p)^2`, which overshoots; one
  tree can increase the training loss. Log loss: the value is a full Newton step, which can overshoot as well; with
  17 examples, a leaf with one positive and one negative raises the total log loss (`C67_binary_refuted`).
* C56 Huber's gradient has the wrong sign in its linear part.

## 5. Further findings

* Width-8 SIMD sums use 32-bit lanes and overflow from 2^27 blocks on.
* `hi - lo` of discretisation bounds or binner limits can overflow `f32`.
* `hicard` ranks are computed as `round(i * step) as u32 - 1`: underflow with few examples
  (panic in debug builds, wrap-around in release).
* A quantile bin number of 510 or more gives a training mask that is all ones, while prediction
  sends the values of the last bin right; harmless because such a split has no right examples.
* A high-cardinality category that is absent from the bag has mean 0. `check_categorical_value`
  accepts `+inf`; casts saturate; NaN is category 0.
* `round(n as f32 * fraction)` is wrong for n > 2^24; fractions above 1 panic.
* `sample_freq = 0` never updates the data; features stay unsplittable unless low-cardinality.
* The binary prior is infinite when all targets are of one class. Metrics of no examples are NaN.
* `min_examples_leaf = 0` can create an empty child, which later panics.
* Empty allocations panic, also for an all-constant data set with an empty histogram layout.
* Config: text after a second `=` is ignored. `max_tree_depth = 0` panics in `Tree::new`,
  `discr_nbits = 0` in `TreeLearnerContext::new` even without iterations.
* `update_out_of_bag_prediction` checks the old prediction for finiteness, not the new one.
* `bb_set_feature_data` leaves the column partly overwritten when it reports a rejected category.
* `from_csv` without records panics.
* `write_doc_csv` does not quote lists, so a default list of several elements would shift the columns of the table
  (`C70_lists_limit`; no current default has more than one element). Lines of documentation are joined by a quote. A
  Boolean parameter would not work from Python: `str(True)` is `True`, the library only accepts `true` (the only Boolean
  setting is for the command line program).

## 6. Axioms of each theorem

`std` = `propext`, `Classical.choice`, `Quot.sound`.

* std: `C01_block`, `C01_enable_bit`, `C01_out_of_range`, `C01_set_bit`, `C02_disable_bit_isolated_partial`, `C02_disable_bit_sets_refuted`, `C02_refuted`, `C03_ones`, `C03_zeros`, `C04_from_bool_iter`, `C04_from_iter`, `C05_from_4u64`, `C05_of_int`, `C05_reset`, `C05_resize`, `C05_set_word`, `C05_view_bits`, `C06_block_count_ones`, `C06_is_zero`, `C06_vectorised_count`, `C07_index_iter`, `C07_index_iter_and`, `C07_index_iter_andnot`, `C07_partition`, `C07_set_positions`, `C08_compressed_same`, `C08_index_iter_and_compr`, `C08_index_iter_andnot_compr`, `C08_index_iter_compr`, `C09_for_each_index`, `C09_for_each_index_and`, `C09_for_each_index_and_compr`, `C09_for_each_index_compr`, `C10_disjoint`, `C10_isolation`, `C10_isolation_or_exhausted`, `C11_alloc`, `C11_alloc_from_bits_iter`, `C11_alloc_from_iter`, `C11_alloc_one_bits`, `C11_alloc_succeeds`, `C11_alloc_zero_bitslice`, `C11_new`, `C12_two_slices_complete`, `C13_layout`, `C13_subtract`, `C14_get_set`, `C14_out_of_range`, `C14_resize`, `C14_truncates`, `C15_clamp_high`, `C15_clamp_low`, `C15_code_in_range`, `C15_code_in_range_any`, `C15_endpoints`, `C15_half_step`, `C15_half_step_f32`, `C15_lower_endpoint`, `C15_monotone`, `C15_overflow_all_zero`, `C15_upper_bound`, `C15_upper_bound_f32`, `C16_copy_block`, `C17_sum_masked`, `C17_sum_masked_range`, `C17_sum_scaled_masked`, `C17_sum_scaled_masked_f32`, `C18_count_and2_c00`, `C18_count_and2_c10`, `C18_count_ones_and`, `C18_count_ones_and_compr`, `C19_sum_all_masked2`, `C19_w8_overflow`, `C20_equals_uncompressed`, `C20_sum_all_masked2_compr`, `C21_sum_and3_c00`, `C21_sum_and3_c10`, `C22_count_and2_c11`, `C22_sum_and3_c11`, `C23_accessors_partial`, `C23_compressed_kernels_partial`, `C23_copy_block_refuted`, `C23_for_each_partial`, `C23_kernels_partial`, `C24_contents`, `C24_lower_limit`, `C24_monotone`, `C24_new`, `C24_overflow_all_first`, `C24_total_weight`, `C24_upper_limit_exact`, `C24_upper_limit_f32`, `C24_upper_limit_of`, `C24_valid_bin`, `C25_rank_types`, `C26_bin_of_order_statistic`, `C26_quantile`, `C26_quantile_f32`, `C27_accepts`, `C27_categories`, `C27_limits`, `C27_names`, `C27_no_records_panic`, `C27_rejects`, `C27_values`, `C28_attained_refuted`, `C28_limits_bound_partial`, `C28_limits_include_zero_partial`, `C28_names`, `C28_values`, `C29_api_partial`, `C29_csv`, `C29_failed_call_refuted`, `C29_retyped_refuted`, `C30_all_features`, `C30_count_exact`, `C30_count_f32`, `C30_every_sample_possible`, `C30_examples`, `C30_examples_exist`, `C30_features`, `C30_no_sampling`, `C30_reservoir`, `C30_with_replacement`, `C31_hicard`, `C31_locard`, `C31_nested`, `C31_numerical_below`, `C31_numerical_f32_partial`, `C31_numerical_nan`, `C31_numerical_partial`, `C31_padding`, `C32_candidates`, `C33_bagging_partial`, `C33_bagging_refuted`, `C33_scores_partial`, `C34_between_samples`, `C34_due`, `C35_categorical`, `C35_nan_refuted`, `C35_near_f32`, `C35_numerical_f32_partial`, `C35_numerical_partial`, `C35_rounding_refuted`, `C36_empty`, `C36_predict`, `C36_shrinkage_bias`, `C36_shrinkage_exact`, `C37_counts`, `C37_depth`, `C37_full`, `C38_equality`, `C38_equality_nan`, `C38_get_supercat`, `C38_hicard`, `C39_ensemble_rows`, `C39_path_features`, `C39_tree_rows`, `C40_calls`, `C40_leaf_values`, `C40_near_f32`, `C40_one_leaf`, `C40_out_of_bag`, `C40_prediction`, `C40_prediction_categorical`, `C40_prediction_exact_partial`, `C40_prediction_f32_partial`, `C40_rounding_refuted`, `C41_categorical`, `C41_exact_partial`, `C41_f32_partial`, `C41_near_f32`, `C41_out_of_bag`, `C41_rounding_refuted`, `C41_row_exact_partial`, `C42_built`, `C42_counts`, `C42_min_examples_refuted`, `C42_sums_f32_partial`, `C42_sums_hinge_f32`, `C42_sums_l1_f32`, `C42_sums_min_partial`, `C42_sums_partial`, `C43_min_examples_refuted`, `C43_round`, `C43_tree_f32_partial`, `C43_tree_hinge_f32_partial`, `C43_tree_l1_f32_partial`, `C43_tree_min_partial`, `C43_tree_partial`, `C44_booster`, `C44_compression`, `C45_build`, `C45_no_deadlock`, `C45_same_tree`, `C45_states`, `C45_terminates`, `C45_training`, `C46_limits`, `C46_terminates`, `C47_iteration`, `C47_iteration_f32`, `C47_iteration_rel_f32`, `C47_leaf_value`, `C47_leaf_value_f32`, `C47_no_increase`, `C47_no_increase_f32`, `C47_no_increase_rel_f32`, `C47_run`, `C47_run_f32`, `C47_run_rel_f32`, `C47_unique_minimiser`, `C48_binary_partial`, `C48_binary_refuted`, `C48_hinge`, `C48_hinge_exact`, `C48_huber`, `C48_l1`, `C48_l2_partial`, `C48_l2_refuted`, `C49_binary_prior`, `C49_binary_prior_f32`, `C49_empty_ensemble`, `C49_hinge_prior`, `C49_hinge_prior_rounded`, `C49_l2_mean`, `C49_l2_mean_f32`, `C49_predictions_are_bias`, `C50_constant_refuted`, `C50_initialize`, `C50_update_partial`, `C51_binary_error`, `C51_binary_error01`, `C51_binary_loss`, `C51_binary_loss_f32`, `C51_empty`, `C51_l2`, `C51_l2_f32`, `C51_l2_perfect`, `C51_rmse`, `C51_rmse_f32`, `C52_defaults`, `C52_line`, `C52_parse`, `C52_parse_error`, `C52_record`, `C52_record_error`, `C52_roundtrip`, `C53_alloc`, `C53_consistent`, `C53_dealloc`, `C53_errors`, `C53_isolation`, `C53_null`, `C53_predict`, `C53_refresh`, `C53_set_config`, `C53_set_feature`, `C53_total`, `C53_train`, `C54_reuse`, `C55_orphan_split_refuted`, `C55_parent`, `C55_split_partial`, `C55_valid_id_partial`, `C55_valid_id_refuted`, `C56_binary`, `C56_binary_f32`, `C56_hinge`, `C56_huber_f32_partial`, `C56_huber_partial`, `C56_huber_refuted`, `C56_l1`, `C56_l1_f32`, `C56_l2`, `C56_l2_f32`, `C57_bias_is_median`, `C57_bias_is_median_f32`, `C57_l1_leaf`, `C57_l1_leaf_f32`, `C57_median_f32`, `C57_quantile`, `C57_quantile_f32`, `C58_leaf_size`, `C59_run`, `C59_trees`, `C60_metrics`, `C61_objective_reuse`, `C62_prediction`, `C62_stores`, `C62_training`, `C63_enough`, `C63_enough_train`, `C63_run`, `C63_train`, `C64_completes`, `C64_errors`, `C64_raw`, `C64_safe`, `C64_summary_categorical`, `C64_summary_exact`, `C64_summary_f32`, `C64_test_file`, `C64_tree`, `C65_configuration`, `C65_failed_fit`, `C65_fit`, `C65_parameters`, `C65_predict`, `C65_rejects`, `C65_safe`, `C66_category_refuted`, `C66_config_errors`, `C66_dealloc`, `C66_empty_matrix_refuted`, `C66_float_parameter_refuted`, `C66_object_safe_partial`, `C66_short_target_refuted`, `C66_silent_failure_refuted`, `C67_binary_partial`, `C67_binary_refuted`, `C67_binary_step_partial`, `C67_hinge_partial`, `C67_hinge_refuted`, `C67_hinge_rounded_partial`, `C67_huber_partial`, `C67_l1_f32_partial`, `C67_l1_partial`, `C67_newton`, `C67_update`, `C68_metric`, `C68_metrics`, `C68_objective`, `C68_objective_metric`, `C68_round_trip`, `C69_api`, `C69_binary`, `C69_binary_f32`, `C69_binary_stores_f32`, `C69_csv`, `C69_csv_binary_f32`, `C69_csv_l2_f32`, `C69_exact`, `C69_fit_refuted`, `C69_hinge_refuted`, `C69_iteration`, `C69_l2`, `C69_l2_f32`, `C69_l2_full_f32`, `C69_l2_stores_f32`, `C69_limits_refuted`, `C69_new`, `C69_program_binary_f32`, `C69_program_l2_f32`, `C69_run`, `C69_sklearn_binary_f32`, `C69_sklearn_l2_f32`, `C69_start`, `C70_dictionary`, `C70_estimator`, `C70_fit`, `C70_lists_limit`, `C70_table`, `C71_decimal`, `C71_exactly`, `C71_f32`, `C72_exactly`, `C72_program`, `C72_values`, `C73_draws`, `C73_rows`, `C73_shuffle`, `C73_update`, `C74_csv`, `C74_error_rates`, `C74_exact_partial`, `C74_float_refuted`, `C74_rounding`, `C74_rounding_succeeds`, `C74_set_feature`, `C74_succeeds_partial`, `C75_classes`, `C75_labels_refuted`, `C75_shift_exact_partial`, `C75_shift_predictions_partial`, `C75_shift_refuted`, `C75_units_categorical_partial`, `C75_units_numerical_refuted`, `C75_units_partial`, `C75_units_predictions_partial`, `C75_units_refuted`, `C75_values`, `C76_iterations`, `C76_seed`, `C76_seed_matters`, `C76_settings`, `C77_c_api`, `C77_c_api_shift_refuted`, `C77_csv`, `C77_ends_partial`, `C77_predictions_f32_partial`, `C77_predictions_partial`, `C77_units_f32_partial`, `C77_units_partial`, `C77_units_refuted`, `C78_alone_refuted`, `C78_c_api`, `C78_c_api_only`, `C78_c_api_refuted`, `C78_csv`, `C78_predictions`, `C78_two_values`, `C78_untested`, `C78_untested_values`, `C78_value`, `C78_without`, `C79_depth`, `C79_leaves`, `C79_min_examples_refuted`, `C79_predictions`, `C79_second_refuted`, `C79_tests`, `C79_values`, `C80_categorical`, `C80_exact`, `C80_f32`, `C80_squared`, `C80_squared_exact`
* propext, Quot.sound: `C01_block_out_of_range`, `C03_empty_panics`, `C05_out_of_range`, `C05_views_agree`, `C07_rejects`, `C10_out_of_range`, `C12_two_slices_disjoint`, `C19_length_checked`, `C23_count_and2_c00_refuted`, `C23_count_and2_c10_refuted`, `C23_for_each_index_and_compr_refuted`, `C23_gather_refuted`, `C23_iterators_partial`, `C23_sum_and3_c11_refuted`, `C23_sum_and3_refuted`, `C25_bin_with_rank`, `C25_rank_iter`, `C45_deterministic`, `C45_mutual_exclusion`, `C45_no_panic`, `C45_panic`, `C72_roundtrip`
* propext: `C09_visit_prefix`, `C25_negative_rank`, `C29_unknown`
* none: `C23_uninitialised_read_refuted`
