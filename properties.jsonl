{"id": "C01", "title": "Bit writes are exact and isolated", "statement": "After setting, enabling or disabling bit i of a block, a block array or a bit vector, reading bit i gives the value written, and reading any other bit gives what it gave before; an index past the end is rejected (panic), never silently dropped.", "quantifier": "every block content, every container length, every pair of bit positions, every boolean", "why_tests_cant": "There are 2^256 contents per block and unboundedly many blocks; tests touch a handful of positions.", "anchors": ["src/bitblock.rs: BitBlock::get_bit/enable_bit/disable_bit/set_bit, get_bit/enable_bit/disable_bit/set_bit", "src/bitset.rs: Bitset::get_bit/set_bit/enable_bit", "src/slice_store.rs: BitVec::get_bit/set_bit/enable_bit/disable_bit"]}
{"id": "C02", "title": "Disabling a bit of a Bitset clears it", "statement": "After Bitset::disable_bit(i), Bitset::get_bit(i) is false and every other bit is unchanged.", "quantifier": "every bitset and every index", "why_tests_cant": "Universal claim over all bitsets; the existing tests never call it.", "anchors": ["src/bitset.rs: Bitset::disable_bit"]}
{"id": "C03", "title": "An n-bit 'all ones' vector has exactly the first n bits set", "statement": "Bitset::ones(n), BitBlocks::one_bits(n) and BitBlockStore::alloc_one_bits(n) produce a vector with ceil(n/256) blocks whose bits 0..n-1 are all 1 and whose remaining bits (padding) are all 0.", "quantifier": "every n > 0", "why_tests_cant": "The trimming loop walks 64-bit words with boundary cases at multiples of 64 and 256; a test fixes a few n.", "anchors": ["src/bitblock.rs: BitBlocks::one_bits", "src/bitset.rs: Bitset::ones", "src/slice_store.rs: BitBlockStore::alloc_one_bits"]}
{"id": "C04", "title": "Building a bit vector from an iterator is a round trip", "statement": "A block array built from an iterator of booleans (or of w-bit integers) reads back exactly the iterator's items in order, all positions beyond the items are zero, and surplus items beyond the requested block count are left out.", "quantifier": "every item sequence, every declared length, every integer width 8, 16, 32, 64, 128", "why_tests_cant": "Unbounded sequences; block-boundary errors only appear at particular lengths.", "anchors": ["src/bitblock.rs: BitBlock::from_iter/from_bool_iter, BitBlocks::from_iter/from_bool_iter", "src/slice_store.rs: BitBlockStore::alloc_from_iter/alloc_from_bits_iter"]}
{"id": "C05", "title": "Reinterpreting views agree bit for bit", "statement": "Viewing a block array as an array of w-bit integers and as an array of v-bit integers describes the same bits: bit k of integer i in the w-view is bit w*i+k of the bit view; writing integer i of the w-view changes exactly these w bits.", "quantifier": "every content, every index, every pair of widths dividing 256", "why_tests_cant": "Unbounded lengths and all contents.", "anchors": ["src/bitblock.rs: BitBlock::cast/cast_mut, BitBlocks::cast/get/set/get_unchecked/set_unchecked", "src/slice_store.rs: BitVec::cast/cast_mut/get_unchecked"]}
{"id": "C06", "title": "Population count is the number of set bits", "statement": "count_ones on a block, on a bit vector, and the vectorised counter return exactly the number of indices whose bit is 1 (no 32/64-bit lane overflow for any vector that fits in memory).", "quantifier": "every content, every number of blocks below the stated lane capacity", "why_tests_cant": "The Harley-Seal network keeps carries across groups of 16 blocks and a remainder loop: correctness for every length and content is beyond enumeration.", "anchors": ["src/bitblock.rs: BitBlock::count_ones", "src/slice_store.rs: BitVec::count_ones", "src/simd.rs: count_ones, csa, harvey_seal_aux"]}
{"id": "C07", "title": "Index iteration lists exactly the set bits, in order, once", "statement": "index_iter yields exactly the positions of the 1-bits in strictly increasing order; index_iter_and yields the positions set in both vectors, index_iter_andnot those set in the first and not in the second, and these two partition index_iter.", "quantifier": "every pair of bit vectors of equal length", "why_tests_cant": "All contents and lengths; missing the last bit of a word or the last word shows only on particular masks.", "anchors": ["src/slice_store.rs: BitVec::index_iter/index_iter_and/index_iter_andnot, IndexIter"]}
{"id": "C08", "title": "Compressed iteration lists exactly the represented examples", "statement": "Iterating a compressed mask (an index vector of 32-bit word positions plus one mask word per position) yields the example numbers 32*idx[k]+b for every k and every bit b set in word k, in order of k and then b; against a second uncompressed vector the and/andnot variants keep exactly those whose bit in that vector is 1/0; if the compressed form represents mask m, the list equals the set-bit list of m.", "quantifier": "every compressed mask, every index vector, every second vector long enough", "why_tests_cant": "Unbounded index vectors and masks.", "anchors": ["src/slice_store.rs: BitVec::index_iter_compr/index_iter_and_compr/index_iter_andnot_compr, for_each_index_compr/and_compr"]}
{"id": "C09", "title": "Callback iteration visits the same indices and stops on request", "statement": "for_each_index (and the and / compressed variants) calls the callback on exactly the indices listed by the corresponding iterator, in that order, up to and including the first index for which the callback returns true (stop), and on no index after.", "quantifier": "every vector(s), every callback", "why_tests_cant": "Quantifies over all callbacks and masks.", "anchors": ["src/slice_store.rs: BitVec::for_each_index, for_each_index_and, for_each_index_compr, for_each_index_and_compr"]}
{"id": "C10", "title": "Live allocations of a slice store never overlap or leak into each other", "statement": "Under every sequence of allocations, frees, writes and resets, each live slice reads back exactly what was last written to it (or its initial value), regardless of what was allocated, freed or written elsewhere: the store behaves like a map from handles to independent arrays.", "quantifier": "every history of store operations of any length", "why_tests_cant": "Overlap depends on the history of recycled ranges; tests try a few histories.", "anchors": ["src/slice_store.rs: SliceStore::alloc_slice/free_slice/get_slice/get_slice_mut/reset"]}
{"id": "C11", "title": "A new allocation has the requested length, alignment and initial content", "statement": "alloc returns a range with at least/equal the requested number of elements whose start is a multiple of the store's element alignment; zero-allocations are all zero even when a recycled range is used; HistStore allocations hold only default values.", "quantifier": "every history, every length", "why_tests_cant": "Recycled memory holds old contents only after particular histories.", "anchors": ["src/slice_store.rs: SliceStore::alloc_slice, HistStore::alloc_hist, BitBlockStore::alloc_zero_blocks/alloc_zero_bits"]}
{"id": "C12", "title": "Two mutable slices handed out together are disjoint", "statement": "Getting two mutable slices at once succeeds only when the two ranges do not overlap, so writing through one never changes the other.", "quantifier": "every store, every pair of ranges", "why_tests_cant": "All ranges; aliasing only shows on overlapping pairs.", "anchors": ["src/slice_store.rs: SliceStore::get_two_slices_mut"]}
{"id": "C13", "title": "Histogram subtraction yields parent minus child, per feature and bin", "statement": "In a histogram store with given per-feature bin counts, the histogram regions of different features and nodes are disjoint, and computing the sibling histogram by subtraction gives, for each feature and each bin, parent minus child, leaving parent and child unchanged.", "quantifier": "every layout, every number of nodes, all contents", "why_tests_cant": "Unbounded layouts.", "anchors": ["src/slice_store.rs: HistStore::for_feature_count... alloc_hist/hist_subtract/get_hist", "src/tree/learner.rs: HistVal"]}
{"id": "C14", "title": "Bit-sliced values read back what was stored", "statement": "For every layout width (1, 2, 4 or 8 bits), storing value x < 2^w at position v and reading position v gives x, and every other position is unchanged.", "quantifier": "every slice length, every pair of positions, every storable value", "why_tests_cant": "All positions/contents; layouts interleave bits across lanes.", "anchors": ["src/slice_store.rs: BitSlice::get_value/set_value", "src/bitslice.rs: BitsliceWithLayout::get_value/set_value, bitslice_blockpos"]}
{"id": "C15", "title": "Gradient discretisation is monotone, clamps, keeps the end points and has bounded error", "statement": "Discretising a value x within the bounds into w bits and mapping it back gives a value within half a quantisation step of x (exact arithmetic); larger inputs never map to smaller codes; values outside the bounds are clamped to the end codes; the bounds themselves are represented exactly (exact arithmetic). In binary32 the error stays within half a step plus G/2^18, where G bounds the magnitude of the bounds.", "quantifier": "every real value, all bounds lo < hi, every width", "why_tests_cant": "Continuum of inputs.", "anchors": ["src/slice_store.rs: BitSlice::set_scaled_value/get_scaled_value, BitSliceLayout::linproj"]}
{"id": "C16", "title": "Copying a super-block between bit slices copies exactly these values", "statement": "copy_block_from copies all the values of one 32-value block of the source to the chosen block of the destination and leaves every other value unchanged.", "quantifier": "all sources, destinations and block positions, every width", "why_tests_cant": "All positions/contents.", "anchors": ["src/slice_store.rs: BitSlice::copy_block_from"]}
{"id": "C17", "title": "Masked sums of a bit slice are exact", "statement": "sum_masked returns the sum of the stored values over exactly the positions whose mask bit is 1; sum_all_masked2 the same for the conjunction of two masks.", "quantifier": "every content, mask and length, every width", "why_tests_cant": "Unbounded lengths, all contents.", "anchors": ["src/slice_store.rs: BitSlice::sum_masked, sum_all_masked2, sum_all"]}
{"id": "C18", "title": "Conjunction counts are exact, compressed or not", "statement": "count_ones_and of two masks is the number of positions set in both; with compressed operands it is the number of positions set in the represented masks.", "quantifier": "all masks, all index vectors, all lengths below lane capacity", "why_tests_cant": "Unbounded inputs and a hand-written SIMD network.", "anchors": ["src/slice_store.rs: BitVec::count_ones_and, count_ones_and_compr", "src/simd.rs: count_and_uncompr/compr", "src/count_and_sum.rs: count_and2_*"]}
{"id": "C19", "title": "The SIMD gradient sum over uncompressed masks is exact", "statement": "The vectorised sum over uncompressed gradients and two masks equals the sum of the stored discretised gradients over exactly the positions set in both masks, for each width 1, 2, 4, 8.", "quantifier": "all contents and all lengths below 2^48 blocks (below 2^27 blocks, i.e. 2^32 values, at width 8)", "why_tests_cant": "A 16-way carry-save adder with per-lane weights; only a proof covers all contents and lengths.", "anchors": ["src/simd.rs: sum_uncompr_w1/w2/w4/w8, harvey_seal, reduce"]}
{"id": "C20", "title": "The SIMD gradient sum over compressed masks is exact", "statement": "With a compressed node (index vector, compressed mask, compressed gradients) and an uncompressed feature mask, the vectorised sum equals the sum of gradients over the represented examples that are in the feature mask.", "quantifier": "all contents, all index vectors whose entries are in range of the feature mask, all lengths below the capacity of C19", "why_tests_cant": "Same, plus gather addressing.", "anchors": ["src/simd.rs: sum_compr_*"]}
{"id": "C21", "title": "The second set of counting and summing kernels is exact too", "statement": "The kernels of the count_and_sum module over two masks (none compressed, or the node mask compressed) return the exact number of positions in the conjunction, respectively the exact sum of the stored discretised gradients there, whenever the operands are long enough.", "quantifier": "all contents, all sufficient operand lengths below the capacity of C19, all widths", "why_tests_cant": "Same carry-save reasoning as C19, with different load and accumulate functions.", "anchors": ["src/count_and_sum.rs: sum_and3_w*_c00/c10, count_and2_c00/c10"]}
{"id": "C22", "title": "The doubly compressed kernel joins index vectors correctly", "statement": "When both operands are compressed with strictly increasing index vectors (with zero padding whose mask words are zero), the merge join counts and sums exactly the positions represented in both.", "quantifier": "all pairs of increasing index vectors and mask words", "why_tests_cant": "Merge joins fail on particular interleavings only.", "anchors": ["src/count_and_sum.rs: count_and2_c11/sum_and3_c11"]}
{"id": "C23", "title": "The public safe API never reads outside an allocation", "statement": "No call of the safe bit-vector, bit-slice and counting API reads or writes memory outside the slices passed to it, whatever the arguments.", "quantifier": "all arguments of all safe functions", "why_tests_cant": "Out-of-bounds reads often go unnoticed in tests.", "anchors": ["src/slice_store.rs: for_each_index_and_compr, copy_block_from, get_two_slices_mut", "src/count_and_sum.rs", "src/simd.rs"]}
{"id": "C24", "title": "Binning conserves examples and respects order", "statement": "The binner maps every value to a valid bin; larger values never land in smaller bins; the total weight over all bins equals the total weight inserted; values at the lower/upper limit land in the first/last bin (upper limit: when hi - lo neither overflows nor gives a subnormal bin width; when it overflows, every value lands in the first bin).", "quantifier": "all value sequences, all limits lo < hi, all bin counts", "why_tests_cant": "Continuum of inputs, unbounded sequences.", "anchors": ["src/binner.rs: Binner::new/get_bin/insert"]}
{"id": "C25", "title": "Rank queries on a binner find the right bin", "statement": "bin_with_rank(r) returns the first bin whose cumulative count exceeds r; multi-rank iteration returns the same as separate queries, in order.", "quantifier": "all count vectors, all ranks", "why_tests_cant": "All count distributions.", "anchors": ["src/binner.rs: Binner::bin_with_rank, rank_iter, RankIter::next"]}
{"id": "C26", "title": "Approximate quantiles are within one bin width of the true quantile", "statement": "The representative returned for a rank differs from the true order statistic of the inserted values by at most one bin width.", "quantifier": "all value sequences inside the limits, all ranks", "why_tests_cant": "Continuum of inputs.", "anchors": ["src/binner.rs: Binner::bin_representative, bin_with_rank, insert"]}
{"id": "C27", "title": "CSV import preserves the values, the limits and the cardinalities", "statement": "After a successful CSV import, column j holds exactly the j-th field of each record in order, the recorded limits are the exact minimum and maximum of the column, the cardinality of a categorical column is one more than its largest value, and every malformed, negative or fractional categorical value gives an error rather than a wrong column.", "quantifier": "every list of records, every choice of target and categorical columns", "why_tests_cant": "All files.", "anchors": ["src/data.rs: Data::from_csv_reader/from_csv_record_iter"]}
{"id": "C28", "title": "Column limits set through the C API bound the data", "statement": "After set_feature_data on a column, every value of the column lies within the recorded limits, and the limits are attained by the column.", "quantifier": "every sequence of set_feature_data calls", "why_tests_cant": "Depends on history of calls.", "anchors": ["src/data.rs: Data::set_feature_data", "src/c_api.rs: bb_set_feature_data"]}
{"id": "C29", "title": "The number of bins per feature never exceeds the configured maximum and covers all categories", "statement": "Per feature, the number of histogram bins is at most the configured maximum; for a low-cardinality feature every category except, for binary features, the complementary one has its own bin.", "quantifier": "all data sets and configurations", "why_tests_cant": "All cardinalities and limits.", "anchors": ["src/data.rs: Data::max_nbins/feat_card", "src/dataset.rs"]}
{"id": "C30", "title": "Bagging draws the right number of distinct examples and features", "statement": "For every state of the random generator and every earlier history, each sampling draws exactly round(n*fraction) distinct examples in increasing order, the inactive list is exactly the complement, and exactly the requested number of distinct features is selected. The other two ways to draw (with replacement, reservoir) fill the buffer with the number of elements asked for, in range, sorted, distinct in the second case, and every such sample can be drawn.", "quantifier": "every RNG output sequence, every history of earlier samplings, every n and fraction", "why_tests_cant": "All random outcomes and histories.", "anchors": ["src/dataset.rs: sample_examples, shuffle_first_k, sample_features, inactive_examples_iter, sample_replacement, reservoir_sample"]}
{"id": "C31", "title": "Feature masks mean what the split test means", "statement": "For a low-cardinality categorical feature the mask of bin b contains exactly the active examples whose category is the split value; for a high-cardinality or numerical feature the masks are nested and each contains exactly the active examples on the left of its split value; padding bits are 0.", "quantifier": "all data, all samples, all feature types", "why_tests_cant": "All data sets.", "anchors": ["src/dataset.rs: update_locard_cat_bitvecs, update_hicard_cat_bitvecs, update_num_bitvecs, get_split_value"]}
{"id": "C32", "title": "Each feature offers at most max_nbins split candidates, all valid", "statement": "The number of candidates used for each feature is between 1 and the configured maximum, and each candidate has an allocated mask and a split value.", "quantifier": "all data sets, configurations", "why_tests_cant": "All data.", "anchors": ["src/dataset.rs: update_*; src/data.rs: max_nbins"]}
{"id": "C33", "title": "High-cardinality categories are ordered by their own gradients", "statement": "When high-cardinality categorical splits are built, each category's score is the mean of the gradients of exactly the active examples in that category (also under bagging).", "quantifier": "all data, samples, gradients", "why_tests_cant": "Depends on which examples were sampled.", "anchors": ["src/dataset.rs: update_hicard_cat_bitvecs"]}
{"id": "C34", "title": "Resampling follows the configured schedule", "statement": "A new sample is drawn in the first iteration and in iterations that are a multiple of sample_freq; in all other iterations (and always when sample_freq is 0) the active examples and features, masks, split candidates and super-categories are untouched and no random numbers are used.", "quantifier": "every iteration history and sample_freq", "why_tests_cant": "All histories.", "anchors": ["src/dataset.rs: Dataset::update", "src/boost.rs: train_one_iter"]}
{"id": "C35", "title": "Training and prediction route an example the same way", "statement": "For each split candidate, an active training example is in the left mask iff the finished tree's split test sends the example's row left.", "quantifier": "all data, all candidates", "why_tests_cant": "Two different code paths (bit masks vs comparisons) must agree for all values.", "anchors": ["src/dataset.rs: update_*", "src/tree/tree.rs: predict_leaf_id, SplitCrit"]}
{"id": "C36", "title": "Prediction always reaches a leaf within max_depth steps", "statement": "For every tree built by splitting leaves, prediction on every row terminates at a leaf in at most max_depth steps and returns exactly that leaf's value.", "quantifier": "every sequence of splits, every row", "why_tests_cant": "All tree shapes and rows.", "anchors": ["src/tree/tree.rs: Tree::split_node/predict_leaf_id/predict_single"]}
{"id": "C37", "title": "Tree node counts are consistent", "statement": "After any sequence of splits of leaves of the tree, the number of internal nodes equals the number of splits, leaves = internal + 1, nodes = 2*internal + 1, and no node deeper than max_depth exists.", "quantifier": "every sequence of splits", "why_tests_cant": "Unbounded histories.", "anchors": ["src/tree/tree.rs: Tree::split_node, nnodes, ninternal, nleafs"]}
{"id": "C38", "title": "Unseen categories go right at equality splits", "statement": "At a low-cardinality categorical split a row whose category was not seen in training (or any category different from the split value) goes to the right child; at a high-cardinality split a category outside the stored left set goes right.", "quantifier": "every tree, every row", "why_tests_cant": "All categories.", "anchors": ["src/tree/tree.rs: predict_leaf_id, SplitCrit"]}
{"id": "C39", "title": "A prediction depends only on the row", "statement": "Predicting a batch gives, for each row, the value predicted for this row alone: order, batch size and other rows do not matter; only features tested on the path matter.", "quantifier": "every batch, every permutation", "why_tests_cant": "All batches.", "anchors": ["src/tree/tree.rs: Tree::predict, AdditiveTree::predict"]}
{"id": "C40", "title": "Every active example ends in exactly one leaf and is updated exactly once", "statement": "Training one tree assigns every active example to exactly one leaf - the one prediction routes it to - and updates its current prediction exactly once. The value of a leaf is the learning rate times what the objective asks for its rows with the predictions before the tree; the other leaves play no role.", "quantifier": "all data sets, gradients, configurations", "why_tests_cant": "All data and trees.", "anchors": ["src/tree/learner.rs: train, split_examples, write_target_values/predict_leaf_value"]}
{"id": "C41", "title": "The booster's running predictions are the ensemble's predictions", "statement": "After any number of boosting iterations the running prediction of every training example equals what the returned ensemble predicts for it (same floating-point result).", "quantifier": "every number of iterations, every data set and configuration", "why_tests_cant": "Depends on whole training history.", "anchors": ["src/boost.rs: train_one_iter", "src/tree/learner.rs", "src/objective.rs: update_predictions", "src/tree/tree.rs: AdditiveTree::predict"]}
{"id": "C42", "title": "Histograms hold the exact count and gradient sum of each candidate", "statement": "For each tree node and each candidate, the (count, sum) pair in the histogram - whether built directly or derived by subtraction from the parent - equals the number of, and the discretised gradient sum over, the node's examples in the candidate's left mask.", "quantifier": "all nodes, data, configurations", "why_tests_cant": "Derived histograms depend on the whole path.", "anchors": ["src/tree/learner.rs: build_histograms, get_grad_sum, hist_subtract"]}
{"id": "C43", "title": "The chosen split is the best admissible one", "statement": "The selected split has the largest gain of all candidates that leave at least min_examples_leaf examples on both sides and gain more than min_gain; if there is none, the node becomes a leaf.", "quantifier": "all histograms and configurations", "why_tests_cant": "All histograms.", "anchors": ["src/tree/learner.rs: find_best_split, get_loss"]}
{"id": "C44", "title": "Compression is only an optimisation", "statement": "The trained model does not depend on compression_threshold: compressing a node's examples preserves the represented set and all counts and sums.", "quantifier": "all data, thresholds", "why_tests_cant": "Trigger conditions depend on data.", "anchors": ["src/tree/learner.rs: split_examples, compress_examples"]}
{"id": "C45", "title": "Parallel histogram building is deterministic", "statement": "Whatever order the worker threads process the features in, and however their steps interleave, the histograms are those of sequential processing and so is the trained tree; the workers never deadlock, and they panic only if sequential processing would.", "quantifier": "every schedule", "why_tests_cant": "All interleavings.", "anchors": ["src/tree/learner.rs: build_histograms"]}
{"id": "C46", "title": "Depth and size limits are respected", "statement": "A trained tree never exceeds max_depth, so it has at most 2^max_depth leaves; training terminates.", "quantifier": "all data, all configurations", "why_tests_cant": "All data.", "anchors": ["src/tree/learner.rs: train; src/tree/tree.rs"]}
{"id": "C47", "title": "A boosting step does not increase squared training error", "statement": "With squared loss in exact arithmetic each leaf value is the mean residual of its examples, the unique minimiser of the squared error, and for learning rate in [0,2] no iteration increases the squared error of the examples it is trained on; without sampling of examples these are all, so the training error never increases.", "quantifier": "all data, all trees", "why_tests_cant": "All targets and partitions.", "anchors": ["src/objective.rs: L2", "src/boost.rs"]}
{"id": "C48", "title": "Gradients lie within the bounds announced to the discretiser", "statement": "Each objective announces bounds that contain all its gradients, so no gradient is clamped in discretisation; hinge gradients are exactly representable.", "quantifier": "all targets and predictions", "why_tests_cant": "Continuum.", "anchors": ["src/objective.rs: bounds, initialize, update"]}
{"id": "C49", "title": "Training starts from the objective's bias", "statement": "Before the first iteration every prediction equals the objective's bias and the ensemble without trees predicts the same.", "quantifier": "all targets", "why_tests_cant": "All targets.", "anchors": ["src/objective.rs: initialize, bias", "src/boost.rs"]}
{"id": "C50", "title": "Every objective trains on every valid target column", "statement": "Initialising and updating an objective never panics on a non-empty target column, in particular not on a constant one.", "quantifier": "all targets", "why_tests_cant": "All targets.", "anchors": ["src/objective.rs: L1, Huber; src/binner.rs: Binner::new"]}
{"id": "C51", "title": "Metrics compute what their names say", "statement": "The metrics L2, Rmse, BinaryError, BinaryError01 and BinaryLoss equal their mathematical definitions (mean squared error, its root, fraction of examples on the wrong side of 0 or of 1/2, mean log loss) for all equally long non-empty target and prediction columns, are non-negative, and zero exactly for perfect predictions where the definition says so.", "quantifier": "all columns", "why_tests_cant": "Continuum.", "anchors": ["src/metric.rs"]}
{"id": "C52", "title": "Configuration parsing is faithful", "statement": "Parsing key=value settings sets exactly the named field to the parsed value, later settings win, unknown keys and unparsable values give an error and leave the other fields untouched; parsing a comma-joined list of decimal numbers gives the list back; settings that are not given have the documented defaults.", "quantifier": "all strings", "why_tests_cant": "All strings.", "anchors": ["src/config.rs: parse, set_field, parse_vec"]}
{"id": "C53", "title": "The C API is a safe state machine", "statement": "For every sequence of C API calls on a live context, calls in a wrong state report an error instead of crashing, errors leave a usable context, and prediction before training is refused.", "quantifier": "every call sequence", "why_tests_cant": "All histories.", "anchors": ["src/c_api.rs"]}
{"id": "C54", "title": "Training state reuse is invisible", "statement": "Training a tree with a reused (reset) tree-learner context gives the same tree as with a fresh context.", "quantifier": "every training history", "why_tests_cant": "All histories.", "anchors": ["src/tree/learner.rs: TreeLearnerContext reset, src/slice_store.rs: reset"]}
{"id": "C55", "title": "Node ids are checked against the tree", "statement": "is_valid_node_id accepts exactly the ids of the nodes of the tree, and split_node refuses an id that is not a leaf of the tree. The parent of both children of a node is that node, and every node but the root is a child of its parent.", "quantifier": "every tree built by splits, every id", "why_tests_cant": "All split histories.", "anchors": ["src/tree/tree.rs: is_valid_node_id, split_node, nnodes, parent, left_child, right_child"]}
{"id": "C56", "title": "Gradients are derivatives of the loss", "statement": "The gradients an objective hands to the tree learner are the derivatives (at kinks: subderivatives) of its loss with respect to the predictions.", "quantifier": "all targets and predictions", "why_tests_cant": "Continuum.", "anchors": ["src/objective.rs: update (five objectives), Objective::gradients documentation"]}
{"id": "C57", "title": "Absolute loss uses medians", "statement": "With absolute (and Huber) loss the starting value is the median of the targets, and with absolute loss a leaf value is the median of the residuals of its examples, both up to one 1024th of the range of the values.", "quantifier": "all targets, predictions and leaves", "why_tests_cant": "Continuum.", "anchors": ["src/objective.rs: quantile!, median!, L1, Huber; src/binner.rs"]}
{"id": "C58", "title": "Leaves are not smaller than min_examples_leaf", "statement": "If min_examples_leaf is at least 1, every leaf of a trained tree that has been split at all is the leaf of at least min_examples_leaf active examples.", "quantifier": "every data set, configuration, objective state and random seed", "why_tests_cant": "All trees and all data.", "anchors": ["src/tree/learner.rs: find_best_split, train"]}
{"id": "C59", "title": "A training run makes exactly niterations trees", "statement": "Booster::train, when it returns, has made exactly niterations iterations; the ensemble has one tree per iteration, each within max_tree_depth, and an iteration never changes the bias or an earlier tree.", "quantifier": "every data set, configuration, objective, random seed and number of iterations", "why_tests_cant": "All histories.", "anchors": ["src/boost.rs: train, train_one_iter; src/tree/additive_tree.rs: push_tree"]}
{"id": "C60", "title": "Metrics report the running predictions on schedule", "statement": "The metrics are reported after exactly the iterations that are multiples of metric_frequency (never when it is 0), all of them in order, and each value is the metric of the targets and the running predictions after that iteration.", "quantifier": "every data set, configuration, list of metrics and number of iterations", "why_tests_cant": "All histories.", "anchors": ["src/boost.rs: train_one_iter"]}
{"id": "C61", "title": "Objective objects can be reused", "statement": "The ensemble, the running predictions and the reported metrics of a training run depend only on which objective is given, not on what the objective object was used for before.", "quantifier": "every state of the objective object, every data set and configuration", "why_tests_cant": "All earlier histories of the object.", "anchors": ["src/boost.rs: train; src/objective.rs: initialize, update"]}
{"id": "C62", "title": "Training and prediction are memory-safe for every configuration", "statement": "For every configuration, data set, objective, metric list and random seed, training ends with a model or a panic and never reads or writes outside its buffers; the same holds for predicting with any model on any data.", "quantifier": "all configurations, data of up to 2^32-256 examples, objectives, metrics, random numbers, roundings", "why_tests_cant": "The learner uses unchecked accesses throughout; tests only see the sizes they try and rarely notice an access out of bounds.", "anchors": ["src/tree/learner.rs", "src/dataset.rs", "src/boost.rs", "src/slice_store.rs"]}
{"id": "C63", "title": "Pooled memory never changes the model", "statement": "The histograms, masks, indices and gradients of all nodes of all trees live in four pools that hand freed memory out again, without clearing what is not asked for. A training run ends in a panic or gives exactly the model, predictions and printed metrics that it would give if every one of these buffers had memory of its own; and it makes no access outside the pools. When the memory a tree can need is below 2^32 - 1 elements, the pools cause no panic.", "quantifier": "every data set, configuration, objective, metrics, random numbers, rounding", "why_tests_cant": "A buffer handed out while still in use, or read before it is written, shows up only for particular orders of allocation and release, that is, shapes of trees.", "anchors": ["src/slice_store.rs", "src/tree/learner.rs: TreeLearnerContext, train, split_examples, compress_examples", "src/boost.rs: train"]}
{"id": "C64", "title": "The command line program: errors, reports, and `tree` = one round of `boost`", "statement": "The program ends with an error exactly when the command, a setting, the objective, a metric or a file is wrong, and then nothing has been trained; once a model is trained and the test file has the columns of the training file, it ends with a report. `tree` reports the same values as `boost` with one iteration, for every configuration. The values of the report are the metrics of the predictions `boost_and_predict_raw` prints; the test file has no influence on training; when the metrics are printed in the last iteration, the values of the report for the training data are exactly those last values (data without numerical features in any rounding; with numerical features in exact arithmetic and, in f32, for fixed-point columns and columns in general position, without NaN). No run makes an access out of bounds.", "quantifier": "all argument lists, files, roundings, random numbers", "why_tests_cant": "All configurations and data sets; the summary is computed by another path (prediction) than the values printed during training.", "anchors": ["src/bin/run.rs: main, parse, load_data, single_tree, boost, summary", "src/data.rs: from_csv_path", "src/tree/tree.rs: Tree::predict, AdditiveTree::predict"]}
{"id": "C65", "title": "The scikit-learn estimator trains and predicts what the library does, for any arguments and history", "statement": "fit and predict of the Python estimator never cause undefined behaviour, whatever the arguments, the parameters and the earlier calls. fit with a matrix and a target of 32-bit floats gives the model that training gives for the parameters and data (parameters that are no text of a value for the setting keep their default), whatever the estimator was used for before; predict gives one value per row, the predictions of that model for the matrix, independent of which columns are categorical, and leaves the model as it is. Matrices and targets that do not fit, and predict before fit, raise an exception.", "quantifier": "all matrices, targets, parameter values, earlier calls on the estimator, other uses of the library in between", "why_tests_cant": "All histories and all arguments; the estimator goes through raw pointers whose lengths the library trusts.", "anchors": ["python/bitboost/sklearn.py: fit, predict", "python/bitboost/bitboost.py: RawBitBoost", "src/c_api.rs"]}
{"id": "C66", "title": "The Python package reports errors and does not touch memory outside of arrays", "statement": "A method of RawBitBoost either does what it says or raises an exception; fit either trains or raises; no method reads or writes outside of the arrays it is given; after dealloc every method raises an exception and the context is not freed again.", "quantifier": "all sequences of method calls with all arguments", "why_tests_cant": "All call sequences and array sizes.", "anchors": ["python/bitboost/bitboost.py: RawBitBoost", "python/bitboost/sklearn.py: fit"]}
{"id": "C67", "title": "The value of a leaf does not increase the loss of its examples", "statement": "The value an objective computes for a leaf (with learning rate 1) does not make the loss of the examples of the leaf larger than it is with the best or the reference value for that loss: the mean residual for squared loss, the median for absolute loss (up to the resolution of the 1024 bins), a median improved by a clipped step for Huber loss, a Newton step for log loss, and for hinge loss a step that does not increase the loss. The learning rate times that value is stored in the leaf and added to the predictions of exactly these examples.", "quantifier": "all targets, predictions and sets of examples", "why_tests_cant": "Continuum of residuals and all leaf contents.", "anchors": ["src/objective.rs: predict_leaf_value, update_predictions"]}
{"id": "C68", "title": "Objectives and metrics are chosen by their names", "statement": "The names accepted for an objective or a metric are exactly the documented ones, in any mixture of upper and lower case, each selects the objective or metric it names, a list of names gives the metrics in that order or is rejected as a whole, and the name an objective or metric reports selects it again.", "quantifier": "all strings", "why_tests_cant": "All strings.", "anchors": ["src/objective.rs: objective_from_name", "src/metric.rs: metric_from_name, metrics_from_names, metric_for_objective"]}
{"id": "C69", "title": "Training succeeds on valid inputs", "statement": "With settings in range, data with columns of equal length, at most 2^24 rows, finite limits and valid categories, and targets the objective can start from, training does not panic: the booster is made, every iteration ends, and the run returns the number of trees asked for, for every random seed.", "quantifier": "all valid settings and data, objectives, numbers of iterations, random seeds, and states training can reach", "why_tests_cant": "The assertions in the binner, the learner and the update of the predictions depend on values that arise during training; whether a later iteration panics depends on the whole history.", "anchors": ["src/boost.rs: Booster::new, train, train_one_iter", "src/dataset.rs: Dataset::new, update", "src/tree/learner.rs: train", "src/objective.rs: initialize, update, predict_leaf_value, update_predictions", "src/binner.rs: Binner::new"]}
{"id": "C70", "title": "The parameters of the Python estimators are the settings of the library", "statement": "The table of settings the library writes is read back by the Python package without loss: every setting that is not for the command line program is a keyword argument of the constructor of the estimators, no other argument is accepted, and a setting for which no argument is given has the default of the library when fit trains.", "quantifier": "all sets of arguments, data and histories; all tables of settings whose texts have no quotes and line ends and whose default lists have at most one element", "why_tests_cant": "All tables and arguments; writer (Rust macro) and reader (Python csv and exec) share no code.", "anchors": ["src/config.rs: write_doc_csv, PythonRepr", "src/bin/bitboost_gen_config_csv.rs: main", "python/bitboost/bitboost.py: get_config_params, gen_init_fun, default_value_str", "python/bitboost/sklearn.py: BitBoost.__init__"]}
{"id": "C71", "title": "Numbers in texts are read exactly and rounded once", "statement": "A decimal number in a configuration or a data file, in any written form (signs, point, exponent, any number of digits), is read as the single-precision number nearest to its exact value; besides decimal numbers exactly the words inf, infinity and nan are accepted, and every other text is rejected.", "quantifier": "all texts", "why_tests_cant": "All texts; whether a text is near the midpoint of two floats depends on arbitrarily many digits.", "anchors": ["src/data.rs: from_csv", "src/config.rs: parse_record"]}
{"id": "C72", "title": "A table written as CSV text is loaded as it is", "statement": "However a table is written as text (fields in quotes or not, quotes in fields doubled, lines ended by \\n, \\r or \\r\\n, blank lines, with or without an end of line at the end), loading it gives one example per record with the number of every field in its place and the names of the header; it is loaded exactly if there is a record, all records and the header have the same number of fields, all fields are numbers and those of categorical columns are categories.", "quantifier": "all tables, all ways to write them, all configurations with a delimiter that is not the quote or an end of line", "why_tests_cant": "All tables and all ways to write them.", "anchors": ["src/data.rs: from_csv"]}
{"id": "C73", "title": "Samples are uniform", "statement": "When the random generator draws its numbers uniformly from the ranges it is asked for, every sample of rows and of features of the right size is equally likely in every update that draws one, whatever was drawn before, and the samples of rows and of features are independent: of the n (n-1) ... (n-k+1) possible results of the draws exactly k! give a particular sample of k of n.", "quantifier": "all data sets, configurations and histories of updates; all samples", "why_tests_cant": "All histories and all draws; frequencies in a test only estimate the probability.", "anchors": ["src/dataset.rs: sample_examples", "src/dataset.rs: sample_features", "src/dataset.rs: shuffle_first_k"]}
{"id": "C74", "title": "The order of the training rows does not matter", "statement": "With all examples in use, training on the same rows in another order gives the same trees and the same printed metrics, the running predictions are those of the rows in their new order, and training succeeds in one order exactly if it does in the other; loading records in another order gives the same data with the rows in that order.", "quantifier": "all data, orders of the rows, configurations without sampling of examples, objectives, metrics and random seeds", "why_tests_cant": "All permutations of all data sets; any sum, mask or histogram that depends on positions would break it.", "anchors": ["src/boost.rs: Booster::train", "src/tree/learner.rs: train", "src/dataset.rs: Dataset::new, update", "src/objective.rs", "src/data.rs: from_csv, set_feature_data"]}
{"id": "C75", "title": "What training depends on in the targets", "statement": "Training uses nothing of the target but its values: its recorded limits, type and cardinality and the names of the columns do not change the model. For the objective hinge only the class of a target (below one half or not) matters; for binary the labels have to be 0 and 1. For l2, l1 and huber, adding a constant to all targets leaves the trees as they are and moves the bias, the running predictions and every prediction by the constant, and leaves the printed regression metrics unchanged (up to rounding). For l1, measuring the targets in other units (a * t + b with a > 0) gives trees with the same tests and values multiplied by a, and converts the bias, the running predictions and every prediction like the targets (up to rounding); for l2 and huber, too, if all features are categorical and min_gain is multiplied by a squared (or is 0).", "quantifier": "all data, targets, constants, configurations (with or without sampling), metrics and random seeds; roundings where stated", "why_tests_cant": "A relation between two runs for all data sets, targets and constants.", "anchors": ["src/boost.rs: Booster::train", "src/objective.rs: initialize, update, predict_leaf_value, update_out_of_bag_prediction", "src/metric.rs", "src/tree/learner.rs: train", "src/data.rs: get_target", "src/tree/tree.rs: AdditiveTree::predict"]}
{"id": "C76", "title": "Which settings a trained model depends on", "statement": "The trees, the bias and the running predictions depend only on the settings of the learner and of the objective in use and on the number of iterations: not on the metrics and how often they are evaluated, the names and format of files, or the settings of other objectives; without sampling they do not depend on the random seed either. If training for n iterations succeeds, training for k <= n iterations succeeds and gives the same bias, the first k trees and the first part of the printed metrics.", "quantifier": "all data, configurations, objectives, metrics, random generators and numbers of iterations", "why_tests_cant": "A relation between two runs for all pairs of configurations and all seeds.", "anchors": ["src/boost.rs: Booster::new, train, train_one_iter", "src/config.rs: Config", "src/dataset.rs: Dataset::new, update", "src/tree/learner.rs: train", "src/objective.rs: initialize"]}
{"id": "C77", "title": "The units of numerical features do not matter", "statement": "Measuring a numerical feature in other units (a * x + b with a > 0 in place of x, for some or all numerical features) gives the same trees with converted thresholds, the same bias, printed metrics and running predictions, and the same predictions for data in the other units (up to rounding); training succeeds in one unit exactly when it does in the other. This holds for data read from CSV files; data handed over through the C API may be multiplied this way.", "quantifier": "all data, factors, constants, configurations (with or without sampling), objectives, metrics and random seeds", "why_tests_cant": "A relation between two runs for all data sets and all units; any use of absolute values of a feature would break it.", "anchors": ["src/dataset.rs: update_num, get_split_value", "src/binner.rs: get_bin, get_representative", "src/boost.rs: Booster::train", "src/tree/learner.rs: train", "src/tree/tree.rs: predict", "src/data.rs: from_csv, set_feature_data"]}
{"id": "C78", "title": "A column with one value only plays no role", "statement": "A feature that holds the same value in every training row is never tested by a tree; training with and without the column gives the same trees (up to the numbers of the features), bias, running predictions, printed metrics and predictions, and training succeeds with it exactly when it succeeds without it; it does not matter which value it holds, in training or in prediction. There has to be another feature with more than one value. This is for data read from CSV files; through the C API a column is left out of account if all its values are 0.", "quantifier": "all data, columns, configurations (with or without sampling), objectives, metrics and random seeds", "why_tests_cant": "A relation between two runs for all data sets; a constant column changes the numbers of all later features and could change the samples.", "anchors": ["src/dataset.rs: Dataset::new, sample_features", "src/boost.rs: Booster::train", "src/tree/learner.rs: train", "src/tree/tree.rs: predict", "src/data.rs: from_csv, set_feature_data"]}
{"id": "C79", "title": "A smaller tree is a pruned larger tree", "statement": "With a smaller max_tree_depth, a larger min_gain or both, and all else equal, the first tree of a run is the first tree of the larger run with some splits undone: each of its tests is at the same node of the larger tree, and every row ends in the larger tree where it ends in the smaller one, or below, and a leaf that both trees have has the same value in both. With the same min_gain the tests above the smaller depth are the same in both trees. (Not so for later trees, and not for min_examples_leaf.)", "quantifier": "all pairs of configurations (with or without sampling), data, objectives, metrics and random seeds, rows and roundings", "why_tests_cant": "A relation between two runs for all configurations and data; any use of the depth or min_gain beyond stopping would break it.", "anchors": ["src/tree/learner.rs: train, find_best_split", "src/tree/tree.rs: is_max_leaf_node, split_node, predict_leaf_id_of_example", "src/boost.rs: train_one_iter", "src/config.rs: max_tree_depth, min_gain"]}
{"id": "C80", "title": "The value of a leaf is made from the rows that end there", "statement": "In every iteration, the value of a leaf of the new tree is the learning rate times what the objective asks for the training rows in use that prediction sends to this leaf (at least one), with the predictions of the ensemble so far; for squared loss this is the mean of target minus prediction over these rows. This is for data without numerical features, for exact arithmetic with numerical features without missing values, and for f32 arithmetic with numerical features that are fixed-point numbers or in general position; with other numerical features rounding can make training and prediction disagree about a row.", "quantifier": "all data, configurations, samples, objectives, metrics, random seeds and numbers of earlier iterations, all leaves", "why_tests_cant": "All data and histories; training partitions rows with bit masks, prediction follows the tests of the tree, and both have to agree in every iteration and for every leaf.", "anchors": ["src/tree/learner.rs: train", "src/objective.rs: predict_leaf_value, update", "src/boost.rs: train_one_iter", "src/tree/tree.rs: predict_leaf_id_of_example, AdditiveTree::predict"]}
