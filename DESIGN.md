# Formal model of rwth-i6/returnn in Lean 4

## Layout

- `lean/Verif/<Area>/Model.lean`: executable model of the code, each definition cites the file and lines in /repo.
- `lean/Verif/<Area>/Spec.lean`: the small specification vocabulary used in the statements, independent of the model helpers.
- `lean/Verif/<Area>/Lemmas.lean`: helper lemmas.
- `lean/Verif/<Area>/Props.lean`: the property theorems and the non-vacuity examples.
- `properties.jsonl`, `MANIFEST.json`, `seeded/LOG.jsonl`: properties, their status, the mutation experiments.

## Conventions

Python ints are `Int`/`Nat`, numpy/float arithmetic is exact (`Int`/`Rat`) unless said otherwise. Exceptions and failing
asserts are values (`Except`/`Option`/an error constructor). Randomness is a parameter: an arbitrary permutation
or an arbitrary function of the seed, so every theorem holds for each outcome. Threads, processes and crashes are
transitions of a small-step relation. Where the code violates the property, the negation is proved with a
witness and the part that does hold is a theorem with the suffix `_partial`.

## Plan per property

- **C01** Partitions and shards tile the epoch. Model `Data.Order` slicing with the code's loop (`partition sizes`, start/end). Prove the flat-map over (sub-epoch, shard) is the identity by telescoping sums; size bound by arithmetic.
- **C02** Every sequence ordering is a permutation and delivers its advertised order. Model every branch of get_seq_order_for_epoch as a function of `n`, `len : Nat -> Int`, and shuffle results (arbitrary permutations supplied by an abstract RNG). Prove `List.Perm` to range n, sortedness, stability.
- **C03** Every sequence is seen exactly once per full epoch. Compose C01, C02 with the seed function; RNG = arbitrary function of the seed.
- **C04** laplace ordering alternates sorted bins. Prove bin structure of the laplace branch: flatten of bins, each Pairwise (<=)/(>=).
- **C05** repeat_epoch, unique_seq_tags and seq_tags_filter. Model the tail of get_seq_order_for_epoch (partition, repeat, unique, filter in the code's order).
- **C06** DistributeFilesDataset splits files into contiguous non-empty bins. Model the greedy loop with exceptions as values; invariant: remaining files >= remaining bins.
- **C07** DistributeFilesDataset covers every file once per full epoch over all workers. Compose C06 with the shard slice.
- **C08** Batching pipe loses nothing and respects limits. Model the generator as a fold with state (current batch, emitted batches); induction over the stream.
- **C09** Bucket batching keeps every admissible sequence exactly once. Fold with bucket table; permutation invariant.
- **C10** Torch chunking covers the sequence. Model chunk starts `range(0,len,step)` and slices; arithmetic.
- **C11** Length filter and buffer shuffling are faithful stream transformers. List.filter / buffer model with arbitrary permutation per buffer flush.
- **C12** Legacy chunked iteration. Model the while loop with well-founded recursion.
- **C13** Legacy batch generator partitions the sequence stream. Model of the recurrent branch; invariant by induction. Off-by-one of max_total_num_seqs as refuted claim.
- **C14** BatchSetGenerator behaves as a cursor over a list. State machine + refinement to a list cursor.
- **C15** LRU cache refines a bounded association list. Heap model of the doubly linked list (node ids -> prev,next,key,value) refined to an association list; invariant by induction over operations.
- **C16** Memoised calls are transparent and never corrupt the cache. Split the wrapper at the lock boundary; reentrancy model.
- **C17** NumbersDict arithmetic is key-wise. Model NumbersDict as finite map + broadcast option.
- **C18** Pickled object framing over pipes round-trips. Byte-list model with a reader that returns arbitrary non-empty chunks.
- **C19** StepFunction returns the value of the nearest key. Model bisect_left on sorted keys.
- **C20** Integer helpers. Int/Nat arithmetic.
- **C21** binary_search_any and the epoch-wise length filter. Bisection loop with well-founded recursion; prefix mean via integer cross multiplication.
- **C22** List utilities. List functions, specs by indexing.
- **C23** LaplaceOrdering post-processing keeps the stream. Fold over stream.
- **C24** MultiProcDataset is equivalent to the wrapped dataset. Index arithmetic `idx % W`, `idx / W`; both sharding modes.
- **C25** CachedDataset2 serves the right sequence under any monotone access pattern. State machine over (window start, cached list), inner dataset = arbitrary list.
- **C26** FileCache never serves a stale or truncated copy. Small-step file system model with crash transitions; inductive invariant.
- **C27** FileCache.get_file retries until success. Loop over a list of attempt outcomes. (Found: last_error is never reset.)
- **C28** FileCache cleanup policy. Pure function over list of cached files.
- **C29** LockFile mutual exclusion. Interleaving transition system over processes; invariant.
- **C30** Touch thread keeps exactly the files in use alive. Ref-count map fold.
- **C31** Newbob learning rates stay within bounds and only change as configured. Model over rationals; float rounding not modelled.
- **C32** cleanup_old_models keeps what must be kept. Set functions over epoch lists.
- **C33** Resume epoch. Decision logic over options.
- **C34** Stats accumulates exact moments. Exact rationals; float rounding not modelled.
- **C35** Learning-rate file round-trips and is written atomically. Key renaming round-trip; two-step write with crash states.
- **C36** BPE segmentation is lossless. List Char model, merge loop with fuel = length (each merge shortens).
- **C37** Sampling BPE finds a valid split iff there is one. Trie inductive type + DFS with explicit stack; sampler as arbitrary bool stream; termination measure.
- **C38** Vocabulary id/label mappings are inverse. Assoc-list model.
- **C39** CombinedDataset serves the sequence selected by the joint order. Counters model.
- **C40** CombinedDataset sampling visits sub-dataset sequences cyclically. Modular arithmetic.
- **C41** MultiEpochDataset concatenates inner epochs. State machine over inner epochs.
- **C42** Dataset wrappers are re-initialisable. State machine of init_seq_order; expected to be refuted for predefined lists.
- **C43** Worker process loop. One model for the two loops (DistributeFilesDataset, MultiProcDataset); transition system over requests and prefetch steps; invariant: the cache is a contiguous window of the sequences.
- **C44** PiecewiseLinear. numpy.interp over exact rationals.
- **C45** merge_random_seeds. Injectivity of the byte string given to the hash; the hash is a parameter.
- **C46** simplify_and_format_number. Strings of digits; value function as specification.
- **C47** Parent directories of used files are touched. Recursion over path components; divergence shown by an invariant.
- **C48** get_last_best_epoch. List minimum with ties.
- **C49** Crash-resumed training. Transition system train/save/cleanup/crash/resume on top of the engine functions; invariant over all runs.
- **C50** MetaDataset alignment. History invariant with arbitrary (also disobedient) sub-datasets; progress for obedient ones.
- **C51** ConcatDataset. Offsets as prefix of the cumulative sums; windows of the sub-datasets as invariant.
- **C52** Dim arithmetic. Dims as expression trees; value of a tree by integer arithmetic; induction over the (limited) recursion depth of
  the simplifying operations, for any sound equality and cache.
- **C53** Sizes and dim values of derived dims by induction on the tree.
- **C54** Convolution output dims: from C52, as an equivalence on frame positions.
- **C55** rf.edit_distance: the diagonal recursion keeps the last diagonals of the usual table (invariant over diagonals), the table is the least number of single edits (induction over edits and alignments).
- **C56** Native edit distance: every write to a cell of a diagonal writes the table value, so any order of the threads gives the diagonal; invariant over diagonals; bounds-checked reads and writes.
- **C57** rf.while_loop and rf.scan: the batched loop with masks is compared with the loop of each entry on its own (invariant over iterations). Final state of scan with cond: the code disagrees, see below.
- **C58** Hdf: the content of the file as an invariant while sequences are written (`FInv`: arrays are concatenations, rows of lengths by
  sorted keys); reading from any list of files which represent sequences (`Rep`, `openFiles_spec`). Partial, see the disagreements.
- **C59** Hdf: the dumped file satisfies `Rep`. Partial, see the disagreements.
- **C60** CtcFsa: the topology as a relation `Topo` on states 2i (after i labels) and 2i+1 (in label i); a string is accepted from a state iff
  its labels are the remaining ones (`acc_iff`); without the end state the topology is deterministic, so paths are unique. The edge lists of the
  Python function (membership, no duplicates) and of the native op (index of an edge recovered from the edge) have this topology (`HasTopo`).
- **C61** FastBw: kernels as folds over the threads in any order; forward and backward state buffers are sums over path prefixes and suffixes;
  their product over an edge is the sum over the paths through the edge in this frame (`frame_sum`).
- **C62** FastBw: paths of the CTC FSA and strings are in bijection (C60), the sequences of the native FSA share no states, then C61.
- **C63** FastBw: over the reals, the sum is affine in the probability of one place; derivative by Mathlib's calculus. False if no string fits.
- **C64** Viterbi: `select_max` as a transition system (read, compare-and-swap, retry) over all interleavings; invariant: returned threads are taken
  care of, a pending CAS improves what it has read. A measure shows that all runs end. Frames by induction (`frame_upper`, `frame_back`).
- **C65** Viterbi: C64 with the bijection of paths and strings of C62.
- **C66** DimEq: dims as records in a heap with `same_as` links; `==` (behavior version 16), `is_equal` with its nine options, `__hash__` as functions. Symmetry, monotonicity, documentation as predicate `EqualByOpts`; transitivity and hash under `Sane`, counterexamples without.
- **C67** DimEq: `declare_same_as` as a big-step relation that leaves the direction conditions open; induction on the derivation gives the new base of every dim; histories of calls against the generated equivalence.
- **C68** RfSeq: `pad`, `slice`, `shift_*`, `reverse_sequence` on rows with lengths; the valid part of the result against plain list operations.
- **C69** RfSeq: `pack_padded`, `pad_packed`, `masked_select` on the flat raw tensor; positions by induction over the rows, both orders of dims.
- **C70** RfSeq: `window` as the flat repeat, pad and reshape (with its size check), and as gather with stride, against the neighbourhood of a frame.
- **C71** RfSeq: reductions with the mask values, over a linear order or a field, against the same reduction of the valid frames.
- **C72** RfSeq: `top_k` as a relation (order of ties open) and the split of merged indices; `top_p_mask` with any sorted order.
- **C73** RfSeq: `scatter` as `scatter_reduce_` without self on masked rows, against the frames of each target.
- **C74** Updater: the module tree with shared modules and parameters, torch's traversal with memo, the two sets of names and the lookup; against ownership of parameters in the tree.
- **C75** Updater: `save_optimizer`, `load_optimizer` with the remapping by names and torch's `load_state_dict` by positions; against state by parameter name.
- **C76** Updater: fields of the updater and the group learning rates through `train`; against the learning rate function at each update.
- **C77** Updater: the loop of `train_epoch` with the gradient as the list of its batches; against a relation which batches form an update, and closed form for constants.
- **C78** Attention: keys and values over a padded axis, steps by `cum_concat_step` (from RfSeq), sequences with a mask of length t + 1; against the formula of attention over the frames so far, by an invariant on the state.
- **C79** Attention: mask by lengths, the pad/reshape/slice shift on lists, index vectors, rotation of pairs; against the formula with the relative position j - i; rotary energies over the reals.
- **C80** Attention: layers and decoder as folds with a list of states; against a stateless function on the labels of one sequence, by an invariant over layers and steps.
- **C81** PyPickle: the converter `py-to-pickle.cpp` is modelled as a parser with fuel over bytes with a bounded output buffer;
  the specification has Python literals as a syntax with text and value, and an independent model of `pickle.loads`.
  Proved by mutual induction over the syntax: text → opcodes → value; exactly when all integers have 32 bits and the buffer is
  large enough.
- **C82** PyPickle: induction over the fuel for every input: termination, bound of the buffer, and that accepted texts give
  a well formed pickle (grammar of opcodes, which the pickle machine reads without a `malformed` error).
- **C83** BinOp: both implementations over raw tensors with explicit permute, reshape and broadcast; a matching of axes is a
  permutation of the operand's axes with equal dims; each search for axes is sound (loop invariant), complete for unique dims;
  permute and reshape of a matching picks the right index (row-major order); then all paths meet in one lemma on aligned operands.
- **C84** BinOp: the check in terms of the dims of the operands; exact for Python, negation for the native code.
- **C85** BinOp.Shortcut: case analysis over operations on rationals; exact condition under which the shortcut is right.
- **C86** RfMatmul: the four paths of the torch backend as raw operations on shape/function tensors, values in any commutative
  monoid with a product; each path equals the sum over the reduced positions by the flat index arithmetic of reshape; then lifted
  to named dims by permutations of axes.
- **C87** RfGather: the six paths as raw operations; each equals selection by the index; dims of the result by a case split.
- **C88** ForwardSplit: `collate_batch`, `raw_dict_to_extern_data` (the sizes), the loop of `forward_with_callback` with the queue,
  for an arbitrary pattern of out-of-memory errors.  Specification: what it means that a batch stands for samples (`Rep`).
  Induction over the pending batches.
- **C89** ForwardSplit: `raw_dict_split_batch`, `_make_split_seq_from_num_splits`, `QueuedDataIter`; induction over the sizes.
- **C90** GradCkpt: recording and recomputation of the operations of a `gradient_checkpoint_scope` over a heap of storages, tensor objects and random generators; the recomputation is simulated against the first run, by induction over the operations.
- **C91** GradCkpt: the stack of `saved_tensors_hooks` with the scopes which stay on it after they are left; invariant between the stack of torch, the own stack, the queued exits and the callbacks, for every sequence of events.
- **C92** TrainProc: the loop of `main_proc_manager` over an arbitrary behaviour of the subprocess; induction over the number of runs.
- **C93** Postproc: generators as lists with an exception at the end; `_collect_single_seq` for increasing indices by induction over the items.
- **C94** Distrib: C94, C95 (Distrib): each rank is a process (a tree of silent steps and collective operations), the engine loops are modelled as functions to such processes; a step of the system is a silent step of one rank or a collective of all ranks of the same kind. A diamond lemma makes the end independent of the schedule; by induction over batches, datasets and epochs every schedule reaches the end given by a separate one-process reference.
- **C96** ConcatSeqs: C96 (ConcatSeqs): `ConcatSeqsDataset` is modelled with `str.split`; the result of each call is shown equal to a specification over an abstract corpus, with the exact condition for its existence; the alignment claims of the documentation by induction over the sub sequences.
- **C97** RfConv: model rf.conv / rf.pool with the PyTorch backend for one row of a padded batch, with the operation on the frames under the filter abstract; prove by cases on the padding that the frames under the filter are those of the sequence alone up to fill values, and that the length formulas agree.
- **C98** LoadModel: model _load_model as a fold over the sorted entries with the sets of missing, loaded and frozen names; prove by induction over the entries where each value comes from, that missing names are noticed, success under explicit conditions, and resuming as a combination of these.
- **C99** StepDims: Model dims as numbered objects with sizes, operation and cache; invariant over all actions of a step, after any history.
- **C100** ModTree: Model modules as a graph of numbered objects; the traversals with memo; prove soundness, completeness and uniqueness by invariants of the queue; the PyTorch conversion by induction on the height.
- **C101** Norm: Model of moments, BatchNorm (masked and fused path, running statistics over any history), LayerNorm, RMSNorm, GroupNorm over an arbitrary field on top of the model of reduce (C71); induction over the calls; the cells of a channel in the raw layout by induction over the shape
- **C102** Norm: Model of dense and sparse smoothing and of the backward function of the smoothed gradient; algebra over an ordered field, sums by induction
- **C103** Lstm: Model of packed sequences (any sort permutation, slices of frames, unsort, pad), of torch's LSTM cell with the bias in two halves, and of ZoneoutLSTM over rf.scan. Invariant over the frames for each entry of the sorted batch. Spec: loop over the own frames, and the equations of the LSTM by gate.
- **C104** ConfigPy: Model of Config (typed and untyped values, add_line, load_file with includes, parse_cmd_args, init_config); running a Python file and eval are any functions. Frame lemmas for each key, then the passes of init_config.
- **C105** ConfigPy: Theorems for each type: reading of the typed value equals reading of the text, given that Python's str and int fit to each other.
- **C106** Augment: SpecAugment with draws and topk as arguments; loop over masks folded into one union of blocks; pigeonhole for the positions topk returns; counting for the bounds.
- **C107** Augment: Dropout with noise as argument: floor(keep + u) is 0 or 1 by cases; the sum over i/n by induction.
- **C108** RfShape: model merge_dims, split_dims and reshape on raw tensors with named dims; values given by assignments of positions to dims; prove the rank law by the row-major index of append, with the transposition law of C74's model; sizes per sequence as a product with discarding.
- **C109** RfShape: split, concat, stack, expand_dim, squeeze, replace_dim on the same model: offsets by induction over the parts; concat with broadcasting by the expansion law of copy_compatible_to.
- **C110** RfLoss: model the masked sum, num_elements_of_shape and masked_fraction_of_shape over dims whose sizes are functions of positions in other dims; prove by commuting nested sums, the count by splitting into dims on which no size depends (product of sizes) and the others.
- **C111** RfLoss: model the losses and the accumulation over steps; prove the score of an epoch to be the mean over all frames by the sums of C110 for batches.
- **C112** SprintData: model both threads as step functions over the shared fields, with sleeping and waking on the condition variable explicit; prove by an invariant over all interleavings, liveness by no-deadlock and a potential which falls with each step.
- **C113** HdfCache: threads of the cache as a transition system, one access to the shared fields per step; invariant: intervals are sorted and disjoint, every sequence which counts as loaded has its data, every allocated one is loaded or still on the list of the single loading thread; the general claim without joining is refuted by a run.
- **C114** HdfCache: interval algebra by recursion over the list (what each sequence holds before and after), start cache by induction, account of free frames for one load_seqs; the limit itself is refuted by a run.
- **C115** RfScatter: one row of values and indices, padding behind the valid frames; the result per out index is compared with the list of the valid values with this index; floating point values as reals with infinities and NaN for the logarithmic modes; sort and top_k as relations, so for all orders of equal values.
- **C116** SprintCache: writer and reader of Sprint archives as functions on lists of bytes; an invariant of the writer says where each entry is; opening after finalize gives the same table, so all reads follow.
- **C117** SprintCache: decoders against independent encoders of the format by induction over the segments; states by induction over the loop; names by folding over the tables.
- **C118** LmData: corpus files as character lists; scan of a memory map for newlines, temporary position array and final index map as in the code; the texts of the indices are related to an inductive relation for lines.
- **C119** LmData: fold over the characters for the symbol parser; loop of replacements with fuel, the learned replacements as an invariant; the collecting loop related to the filter of the order.
- **C120** Allo: the positional code with exceptions as values, the two context loops, the states with given repetitions; digits are decoded again for injectivity, runs of context phones for the context.
- **C121** TransData: model of the loading thread of `TranslationDataset` as a step function with arbitrary chunk sizes, of waiting for lines, of order and vocabularies; invariant and termination measure for the thread; exactness theorems for labels and words.
- **C122** Hooks: model of hooks with the chain of call wrappers of the class, and of parametrizations with properties of the class; invariant over all histories against a list of active hooks.
- **C123** OggZip: Model of `OggZipDataset` from the names of the paths over the loading with segments and subset to single sequences; what is kept between calls is what would be loaded again (invariant over all histories), so each result is stated relative to the loaded entries.
- **C124** RfPcw: Model of the sorting, search, clipping, gathering and interpolation over rational numbers; proved against a description by lines between neighbours.
- **C125** FrontCache: Model of the wrapped keys, their hashes and equality, the lookup with the map of dims, the insertion, and the finalizers; invariant over all histories: each entry is what the function gave for its key; then a hit is the function at the new key by naturality.
- **C126** TensorDict: Model dims as a heap with the tensor of sizes, both functions as a fold over the same list of visits (tensor, or dim at an axis). Proved by an invariant of the written dict (a visit changes only its own key, which was free), and by the value a fitting dim gets from what was written.
- **C127** EpochFrac: Model fractions as real numbers from the dataset over the data pipe and batches to the engine. Proved by induction over the sequences and the batches; the guess for an unknown number by monotonicity of the square root.
- **C128** TextDict: features of lists by induction over the list (first maximum, cutting by lengths); loading, orders and reading as a state; an epoch as a permutation of the file
- **C129** NestedSel: what a leaf means for a hypothesis as a function of the sizes; invariants of the maps over the first pass; second pass leaf by leaf
- **C130** NestedSel: as C129: the meaning of a leaf for a hypothesis, an invariant of the map, then leaf by leaf
- **C131** MapDs: the dict from tags to indices by induction over the number of entries; orders by cases of what is implemented
- **C132** RunMean: running mean as a function of the history of calls; closed form of the average by induction over the history from both ends, bounds and sums by induction
- **C133** Lion: step over groups and parameters as folds; refinement of an independent relation for the rule of one number by induction over the history; bounds by induction over runs of the rule
- **C134** Dropout: dropout as a function of the random numbers at the mask dims; cells by cases on the floor, expectation as a Lebesgue integral
- **C135** TensorArr: arrays as references to lists of a heap; contents by induction over pushes; stack and unstack by the values at named indices, independent of dim order
- **C136** Bleu: the counters as dicts filled by the loops, refined to sums over distinct n-grams of clipped occurrences; range, perfect score and formula over the reals
- **C137** PackDims: masks with their dims; exact characterisation of which dims pass the checks of masked_select and masked_scatter
- **C138** CtxJournal: contexts as chains of frames, parents as suffixes; programs of nested blocks by induction; replay by induction over the entries; the loop over the queue by induction over the total size.
- **C139** OptRead: induction over the reads; the set of read keys is what was asked for.
- **C140** StepSeed: seeds by arithmetic modulo 2^31 (the factor has an inverse); programs by induction; the probability of a sample as the volume of a set of the unit cube, by Fubini and the integral of a power.
- **C141** NpDump: the scan for files by induction; the cache as a window of consecutive sequences, kept by every load.
- **C142** StereoPart: offsets by induction over the partitions; what an epoch reads as a permutation of a segment of all sequences.
- **C143** WavFrames: integer arithmetic for the number of frames and the padding; content by list lemmas.
- **C144** TaskGen: the automata and the digit loops as recursive functions; the outputs are compared with a specification by the history (12AX), the prefix (copy) and the value of the digits
- **C145** Staircase: the loops as lists of edges; a description of the edges from each state of a part, from which the words of the paths follow by induction
- **C146** PPrint: the text as tokens, spaces and new lines; the output of a call is line prefix, prefix, core, postfix and line postfix, by mutual induction over the objects
- **C147** NativeComp: the directory as library and info file; all states in which a run can stop; an invariant over all histories, and witnesses for what fails
- **C148** EnvVars: texts are lists of characters; a separate specification gives a text as parts (characters, escaped dollars, variables) with their value. Proved by induction over the parts, and over the length of the text for the other direction (texts with no parts are refused).
- **C149** RecGuard: programs with guards, exceptions and handlers run on the mutable cache; the specification gives the outcome from the guards open around each place only. Proved by induction over the program; the depth bound by counting distinct keys.

## Trusted base

- The Lean 4.33.0 kernel. No `native_decide`, `bv_decide`, `sorry`, `admit`, own axioms or own elaborators.
- Axioms: each theorem depends on a subset of `propext`, `Classical.choice`, `Quot.sound`.
- That the definitions in `Model*.lean`, `Save.lean`, `Crash*.lean` and so on mirror the cited lines of Python. This was done by
  reading; nothing is extracted from the code and nothing was run. The experiments in `seeded/LOG.jsonl` show that the theorems
  notice realistic changes of the model.
- The semantics of Python and of the libraries as they are used in the models: unbounded ints, stable `sorted`, insertion-ordered
  dicts, floor division and modulo, slices; numpy element-wise operations; POSIX `rename`, `O_CREAT|O_EXCL`, `unlink`.

## What is modelled

| Area | Code | Left out / simplified |
|---|---|---|
| SeqOrder | datasets/basic.py `get_seq_order_for_epoch`, partition/sharding, seeds | RNG = arbitrary; lengths are ints |
| SeqWorker | worker loops of distrib_files.py, multi_proc.py | pipes are queues without loss |
| DistribFiles | datasets/distrib_files.py file distribution, caches over a history of calls | file contents, pre-load of sizes |
| MultiProc | datasets/multi_proc.py distribution over workers | process start, pickling |
| NumbersDict | util/basic.py `NumbersDict` | values are ints or None |
| Pipeline | torch/data/pipeline.py chunking, batching, buckets, filter, shuffle | tensors (collate), threads |
| Legacy | datasets/basic.py `iterate_seqs`, `_generate_batches`, engine/batch.py | custom chunkings, variance, non-recurrent case |
| Lru | util/lru_cache.py on the level of the linked list | hash/eq side effects of keys |
| Framing | util/basic.py pickle framing | pickle is a parameter |
| MathUtil, ListUtil | util/math.py, list helpers of util/basic.py | exact rationals |
| Laplace | datasets/postprocessing.py `LaplaceOrdering` | |
| EpochFilter | datasets/meta.py `EpochWiseFilter` | exact rationals |
| Cached2 | datasets/cached2.py `CachedDataset2` | |
| FileCache | util/file_cache.py copy protocol, retries, cleanup, touch thread, parent directories | see the heads of the files |
| LockFile | util/basic.py `LockFile` | system calls do not fail for other reasons |
| LearningRate | learning_rate_control.py scheduling, save/load | exact rationals, no NaN |
| Engine | engine/base.py model selection, resume, cleanup; crash/resume runs | no NaN; config values well-typed |
| Stats | util/basic.py `Stats` | exact rationals, one coordinate |
| Bpe | util/bpe.py | codes given as pairs |
| Vocab | datasets/util/vocabulary.py `Vocabulary`, `CharacterTargets`, `Utf8ByteTargets` | SentencePieces, files |
| DimMath | tensor/_dim_extra.py (arithmetic, dyn sizes), frontend/conv.py `_calc_out_dim` | dims are their `derived_from_op` trees; `same_as`, batch/ctx and kinds left out; equality and cache are parameters |
| EditDist | frontend/loss.py `edit_distance`, native_op.py `EditDistanceOp` | integers without overflow; a kernel launch is its thread iterations in some order; one result dtype |
| Scan | frontend/loop.py `while_loop`, `scan`; frontend/nested.py `mask_nested` for tensors | body and cond work per batch entry; a shared part without batch dims; no `Dim` in the state; eager |
| Hdf | datasets/hdf.py `HDFDataset` (`add_file`, data and tags, uncached), `SimpleHDFWriter`, `HDFDatasetWriter.dump_from_dataset` | frames opaque; one time axis; dtypes, dims, labels left out; file in memory; the number of sequences is known in dump; `orth`, `raw` are already removed |
| CtcFsa | util/fsa.py `get_ctc_fsa_fast_bw`; native_op.py `GetCtcFsaFastBwOp` | weights (all zero) left out; threads (each index written once) not modelled |
| FastBw | native_op.py `FastBaumWelchOp`; tf/native_op.py `ctc_loss` | probabilities in a semifield (reals for the gradient) instead of -log floats, no rounding; a kernel is its threads one by one in any order (`atomic_prob_add` as atomic); grid/block strides and debug dumps left out |
| Viterbi | native_op.py `FastViterbiOp`; tf/native_op.py `fast_viterbi`, FSA and scores of `ctc_loss_viterbi` | scores in any linear order with -infinity and monotone addition (so with rounding, without NaN); reading an `IdxAndVal` is atomic although the struct is packed; one thread per edge |
| DimEq | tensor/_dim_extra.py 1294-1489, 1523-1555, 1599-1773 | objects as numbers; a hash is the tuple that is hashed (or the id); in `declare_same_as` the conditions for the direction are open, dynamic sizes, batch variants and `derived_from_op` can change arbitrarily, the assertions on sizes are not modelled |
| RfSeq | frontend/array_.py 345-401, 452-493, 622-643, 706-742, 848-915, 982-1109, 1216-1245; torch/frontend/_backend.py 441-534, 1146-1179, 1462-1590, 1769-1813; frontend/dims.py 222-283; torch/util/array_.py 10-40; tensor/_tensor_extra.py 2915-2975 | one batch and one time axis, other axes inside the elements; torch operations by their documentation, with their size and range errors; exact numbers, no float rounding, NaN or infinities (a division by 0 is `none`); mode "constant" of `pad` only; no `logsumexp`, no `padding="valid"` of `window` |
| Updater | torch/updater.py 99-233, 235-382, 391-436, 448-563; torch/engine.py 215-270, 320-530; torch `named_modules`, `named_parameters`, `Optimizer.state_dict`, `load_state_dict` | parameters and modules are numbers; no module contains itself; no tensor conversion; state entries of unknown positions dropped; `param_groups_custom`, grad scaler, clipping, several processes not modelled; a gradient is the list of its batches |
| Attention | frontend/attention.py 28-1020, frontend/decoder/transformer.py 28-383, `cum_concat_step`, `last_frame_position_of_dim` | any field instead of floats, any function as `exp`; -inf of the mask as weight 0, so padding values are finite; no dropout; dims are list positions; frame-wise layers are arbitrary functions; `full_matrix` and the cache of the encodings not modelled |
| PyPickle | `util/py-to-pickle.cpp` (in-memory variant: readers, writer, `Parser`), `util/literal_py_to_pickle.py` `py_to_pickle`, `literal_eval` | bytes are numbers; `strtod` is a parameter (any function to 64 bits or a range error); a C++ exception is the outcome `crash`; error messages, the file based reader and writer, `gzip` and compiling the library are not modelled; `pickle.loads` is part of the specification (only the opcodes which occur) |
| BinOp | `frontend/_native/tensor_ops.cpp` `compareOrCombine` with helpers, `tensorCopyCompatibleToDims` (raw part); `frontend/_utils.py` `bin_op_out_template`, `res_feature_dim`, `res_sparse_dim`; `frontend/_backend.py` `combine`, `compare`; `tensor/_tensor_extra.py` `get_out_permutation_to_dims`, `copy_compatible_to_dims_raw`; `frontend/math_.py` `combine` (shortcuts) | a dim is identity, class under `==`, and match priority; raw tensors are a shape and a function; torch permute/reshape/broadcast by their documentation; no dtypes, names, devices; `time_dim_axis` not modelled; a feature dim object is truthy; shortcuts on rationals |
| RfMatmul | `torch/frontend/_backend.py` `matmul` (1338-1436) | `F.linear`, `mm`, `bmm`, `matmul`, `permute`, `reshape` by their documentation; values in any additive commutative monoid with a product (so no rounding); no dtypes, no amp |
| RfGather | `torch/frontend/_backend.py` `gather` (948-1054) | `torch.gather`, `index_select`, `embedding`, indexing by their documentation; `copy_compatible_to` modelled as the raw version with expansion, `clip_by_value` as a binary operation; no feature dim of the result, devices, dtypes |
| ForwardSplit | `torch/engine.py` `forward_with_callback` (loop), `torch/data/pipeline.py` `collate_batch`, `torch/data/extern_data.py` 28-159, `torch/data/queued_data_iter.py` | frames are atoms (no feature axes, dtypes, devices); the model is the identity; entries have dims `[batch]` or `[batch, time]`; out-of-memory errors are an arbitrary function of the step |
| GradCkpt | `torch/util/gradient_checkpoint.py` (recording and recomputation; scopes and hooks) | values, operations and generator states are arbitrary types and functions; one thread is modelled, other threads by whether one is registered; when tensors die is an arbitrary event |
| Combined, MultiEpoch, MetaDs, Concat | datasets/meta.py | sub-datasets as lists with windows; data keys |
| TrainProc | `util/train_proc_manager.py` | the subprocess is an arbitrary sequence of model directories and return codes; config values are given |
| Postproc | `datasets/postprocessing.py` `PostprocessingDataset` | the wrapped dataset is a list of sequences; generators are lists of what they yield and an exception at the end; the check against the template is a parameter |
| Distrib | torch/distributed.py 21-193; torch/engine.py train 236-258, init_train_epoch 260-295, train_epoch 322-576, eval_model 585-702, _check_missing_eval 1387-1412, _run_step 820-829 (collectives only) | parameters are an abstract ℚ-module, gradient, loss and optimizer are functions; DDP is modelled by its documented behaviour: mean of gradients in backward unless no_sync, broadcast of buffers at forward; reduction in exact arithmetic; no crashes of ranks |
| ConcatSeqs | datasets/meta.py 1407-1672 (ConcatSeqsDataset) | arrays are lists of frames with a number of axes; the order of the epoch is an argument (modelled in SeqOrder, EpochFilter), caching is modelled in Cached2; multiples are not negative |
| RfConv | conv.py conv, pool, make_conv_out_spatial_dims, _calc_out_dim, _consistent_same_padding; _backend.py conv, pool | one spatial axis, torch operations by their documentation, channels inside the frame; no transposed conv, no ONNX export |
| LoadModel | torch/engine.py _load_model, _save_model (model state), util/module.py convert_parameters_to_buffers | file reading, dtypes, devices, hooks; fnmatch as a predicate; load_state_dict by its documentation |
| StepDims | `raw_dict_to_extern_data`, `_get_dyn_dims_from_extern_data` (torch/data/extern_data.py), `reset_raw`, `complete_dyn_size`, cached dim operators, `_CacheDimMath` (tensor/_dim_extra.py) | one new dim per operation (term simplification in DimMath), no same_as, no batch/control flow contexts, subtraction on natural numbers, no garbage collection of cache entries, batch dim not an object |
| ModTree | `Module.named_modules`, `named_parameters`, `children`, `apply`, `get_deep`, `set_deep` (frontend/module.py), `RFModuleAsPTModule` (torch/frontend/bridge.py) | dotted names as lists of parts, attributes without dots, vars only (no class attributes), a PyTorch module as the entries of its state dict, no clash with attributes of torch modules, Python's recursion limit as a bound on the depth |
| Norm | frontend/normalization.py; torch/frontend/_backend.py 1816-1869 (batch_norm) | exact numbers, rsqrt any function; one feature at a time; other dims are batch and time; torch's batch_norm by its documentation; NaN is an error |
| Norm | frontend/label_smoothing.py; torch/util/scaled_gradient.py 38-73; torch/frontend/_backend.py 230-251 | one row along the label axis (and a matrix with the label axis first); smoothing a number, not a tensor |
| Lstm | frontend/rec.py LSTM, ZoneoutLSTM (all of them), _zoneout; torch/frontend/_backend.py 2146-2275 lstm | torch's pack/pad and the LSTM kernel are modelled as documented; numbers are a field, sigmoid and tanh any functions; one batch dim |
| ConfigPy | config.py Config (add_line, load_file, parse_cmd_args after optparse, value, typed_value, int, bool, is_true, float, list, int_list, pickling), global_config_ctx, set/get_global_config; __main__.py init_config | optparse, running of Python files, eval, str and parsing of numbers are parameters; no negative index; elements of lists are no lists; float_list, int_pair, bool_or_other are not modelled |
| Augment | frontend/audio/specaugment.py | One batch dim; random numbers and topk (with its documented order, ties open) are arguments; mask value any; sorting of the steps assumed |
| Augment | frontend/dropout.py | Rationals instead of floats; noise as argument |
| RfShape | torch/frontend/_backend.py 261-438, 537-543 (merge_dims, split_dims, reshape, split, expand_dim, squeeze, concat, stack), frontend/array_.py (merge_dims, concat, squeeze), frontend/_backend.py 1069-1084 | dims by equality class; torch.reshape, cat, split, stack, tile, squeeze by their documented meaning; pack_padded and masked variants, dtype and feature dim only for the order of dims |
| RfLoss | torch/frontend/_backend.py reduce (sum, mean), frontend/dims.py num_elements_of_shape, masked_fraction_of_shape | rationals for floats; dims are numbers; explicit capacities of dims not modelled |
| RfLoss | frontend/run_ctx.py mark_as_loss, total_loss, Loss; torch/engine.py train_epoch, eval_model (accumulated losses) | one loss name in the epoch; gradient scaling, distributed reduction, log_grad_norm not modelled |
| SprintData | datasets/sprint.py SprintDatasetBase (_reset_cache, init_sprint_epoch, init_seq_order, wait_for_returnn_epoch, _wait_for_seq, _have_seqs_added, load_seqs, add_new_data, finish_sprint_epoch, is_less_than_num_seqs, get_data) | a sequence is one value; no predefined order; sub process and its pipe not modelled |
| HdfCache | CachedDataset (init_seq_order, _init_start_cache, load_seqs, _load_seqs_with_cache, _preload_seqs, is_cached, alloc_interval_index, _modify_alloc_intervals, delete, get_input_data, get_targets), HDFDataset._load_seqs | frames are opaque; window 1; one target key; sample() true; no frame shuffling; each numpy slice write and each set update is one step; the arrays of starts are prefix sums |
| RfScatter | returnn/frontend/array_.py scatter, scatter_argmax, scatter_logsumexp, scatter_logmeanexp, top_k_mask, top_p_mask; TorchBackend.scatter | one row; one out dim; no rounding; PyTorch's scatter_add_, scatter_reduce_ as folds over the values in order |
| SprintCache | returnn/sprint/cache.py (FileArchive, FileArchiveBundle, numbering of AllophoneLabeling) | bytes as natural numbers, names by their encoded bytes, floats by their bits, no compressed entries, no state of the file after a failed write |
| SprintCache | see C116 | see C116 |
| LmData | `returnn/datasets/lm.py` LmDataset._lazy_init, _iter_txt, orths | mmap, numpy memmap and temporary files as lists; Bliss XML given as its orth texts; text decoding is the identity |
| LmData | `returnn/datasets/lm.py` LmDataset._collect_single_seq, init_seq_order, dtype choice; `returnn/util/basic.py` parse_orthography(_into_symbols) | random replacement of symbols (add_random_phone_seqs, log statistics) left out; the processing of a line is a parameter for the collecting loop |
| Allo | `returnn/datasets/lm.py` AllophoneState (index, from_index, from_classic_index, phoneme, set_phoneme), PhoneSeqGenerator (_allos_set_context, _allos_add_states, generate_seq), StateTying | random decisions given; lexicon file and lemmas not modelled: words are given by their phones; classes not negative |
| TransData | `datasets/lm.py` `TranslationDataset` | a line is processed by a function which may fail; an exception of the thread is a phase; files are lists of lines |
| Hooks | `frontend/hooks.py`, `frontend/parametrize.py` | one class without subclasses; hooks are functions; parameters are numbered cells; copies of modules and pickling not modelled |
| OggZip | datasets/audio.py 100-140, 188-423, 490-571 | zip files are dictionaries from names to bytes; feature extraction, targets and the random shuffle are parameters; durations are rational numbers; directories instead of zip files are not modelled; an error leaves the state as it was |
| RfPcw | frontend/piecewise_linear.py, frontend/stepwise_scheduler.py, parts of torch/frontend/_backend.py 949-1328 | rational numbers for floats; NaN only for zero by zero; one component of tensors |
| FrontCache | frontend/_cache.py, attention.py 953-1018 | eager backend; `==` of dims is identity; opaque values with a list of dims; keys of numbers by equality |
| TensorDict | `TensorDict` (`tensor/tensor_dict.py`): `update`, `reset_content`, `as_raw_tensor_dict`, `assign_from_raw_tensor_dict_`, `all_dims` | raw tensors and dims are numbers; `get_dim_value` of a batch dim without sizes is an argument; types of values are not checked; caches and derived dims of `reset_raw` are left out |
| EpochFrac | `get_complete_frac`, `generic_complete_frac` (`datasets/basic.py`, `datasets/cached2.py`), `ReturnnDatasetIterDataPipe.__iter__`, `complete_frac` in `collate_batch`, `epoch_continuous` and `_print_process` (`torch/engine.py`), the maximum in `MultiProcDataset` | real numbers for floats; of the data only the tag; of a step only `epoch_continuous` and the printing |
| TextDict | `datasets/text_dict.py` 75-218 | file as its dict, scores rational, vocabulary and order of an epoch as functions, random seeds of the vocabulary and data types left out |
| NestedSel | `frontend/nested.py` 185-416, `replace_dim_v2` of `frontend/dims.py` on rows, `masked_select`/`masked_scatter` of the torch backend for masks with all dims | leaves as a list, masked dims as one axis, one sequence dim per tensor, devices left out, maximum of no sizes is 0 |
| NestedSel | `frontend/nested.py` 133-182 | as for C129; indices are places among all hypotheses; sizes not depending on the beam are static |
| MapDs | `datasets/map.py` 12-201, 265-302 | the user's object and the order of an epoch are functions, tags are numbers, data types left out |
| RunMean | `frontend/reduce.py` RunningMean | field instead of floats; a tensor is its dims and its means over axes at the cells of the mean; eager train flag |
| Lion | `torch/optim/lion.py` Lion without Triton | ordered field instead of floats; gradients given per step; cells are independent |
| Dropout | `frontend/dropout.py` | ordered field with floor; random numbers given; `drop_prob` a float |
| TensorArr | `frontend/tensor_array.py`, eager `tensor_array_*` of `frontend/_backend.py` and `torch/frontend/_backend.py` | raw tensors are functions of indices by position; dims are numbers; sizes fit |
| Bleu | `util/basic.py` compute_bleu, _get_ngrams | reals instead of floats; any token type |
| PackDims | `frontend/array_.py` sequence_mask, pack_padded, pad_packed and the checks of masked_select/masked_scatter; `Dim.need_masking`, `Dim.get_mask` | capacities, copies and caches of dims are left out |
| CtxJournal | `tensor/control_flow_ctx.py` `ControlFlowContext`, `frontend/control_flow_ctx.py`, `frontend/_random_journal.py`, `frontend/state.py` `cls_flatten_tensors` | a context is the list of its frames with identities; journal entries are opaque beside dtype and sizes; the consumers of a node are given in walk order |
| OptRead | `util/basic.py` `CollectionReadCheckCovered` | keys are strings, the set of read keys is a list |
| StepSeed | `frontend/rand.py` `set_random_seed`, `reset_step_random_state`, `get_static_step_based_seed`, `random` (the seed logic), `random_choice_without_replacement` | generator of numpy abstract; real numbers; one axis; uniform numbers strictly between 0 and 1 and independent |
| NpDump | `datasets/numpy_dump.py` `NumpyDumpDataset` | files known by number, features and targets of a file are one opaque value, the order of an epoch is given |
| StereoPart | `datasets/stereo.py` `StereoDataset`, `StereoHdfDataset` (partitions, sequence map, number of sequences) | files are lists of names, order within an epoch given, no content |
| WavFrames | `datasets/raw_wav.py` `_get_input_features` | samples of any type with a zero; exact division |
| TaskGen | `returnn/datasets/generating.py` (targets of 12AX, episodic copy, base conversion, XML) | characters for class numbers, given random inputs |
| Staircase | `returnn/util/fsa.py` (`fast_bw_fsa_staircase`) | limits `None` and 0 are the same (they are in the code), weights (all 0) left out |
| PPrint | `returnn/util/pprint.py` (`pprint`, `pformat`) | tokens for texts, score arbitrary, `repr` of leaves given, `line_postfix` new line or empty |
| NativeComp | `returnn/util/native_code_compiler.py` (`_need_recompile`, `_maybe_compile`, `_cleanup_old`) | one directory, relevant keys as one value, no `include_deps`, lock given |
| EnvVars | `util/basic.py`: `expand_env_vars` | regular expression written as a recursion over the text; the default temp dir and user name are given |
| RecGuard | `util/basic.py`: `guard_infinite_recursion` | one thread (the cache is thread-local); arguments given by identity; programs of guards, sequences, exceptions and handlers. No wrong programs were tried on this area |

Not modelled at all: neural network layers and frontends, TF and Torch backends, native ops, the network construction, audio
and image feature extraction, HDF files, the legacy TF engine, and the tools. Floats are exact rationals where not said otherwise;
no theorem speaks about rounding, NaN or infinities.

## Where the code disagrees with a property

Each is proved as a theorem about the model (named in the manifest notes), and the property is then `partial`.

- Ordering: `default_every_n` drops `n % k` sequences; `sort_bin_shuffle` with more bins than sequences gives float indices.
- DistributeFilesDataset: `finish_epoch` keeps the worker, a second init of the same epoch does not rewind; the constructor only checks
  that there are as many files as sub-epochs, although sub-epochs times shards are needed.
- MultiProcDataset, dedicated sharding: sub-epochs differ from the unsharded ones, with `repeat_epoch` sequences are lost.
- NumbersDict: `any_compare` misses keys which are only in the other; `==` is not transitive.
- Torch pipeline: shuffling fails on an empty stream; chunking with a negative step silently drops sequences.
- Legacy batching: `max_total_num_seqs` admits one more; a last batch with only empty sequences is lost; a key of length <= 1 stops the
  chunking after the first chunk.
- LRU cache: check of `maxsize` outside of the lock gives a `KeyError` in a race; `cache_set` does not overwrite.
- EpochWiseFilter: keeps one sequence too many; `IndexError` for an empty order; `TypeError` for equal starts with one open end.
- List helpers: `uniq_generic` is not `uniq`; `slice_pad_zeros` fails for `begin <= end < 0`. LaplaceOrdering fails on an empty stream.
- `next_power_of_two` is not the least for `n <= 0`; `simplify_and_format_number` is wrong for ints with trailing zeros.
- CachedDataset2: `is_less_than_num_seqs` fails on an empty dataset and is wrong for indices before the window.
- FileCache: a successful retry still raises; torn copy if the source changes during the copy; stale copy if the mtime does not
  increase; name collision with `.copy`; the touch thread dies on a deleted file; `_all_parent_dirs` does not end if the cache
  directory ends with a slash.
- LockFile: two holders after a race for a stale lock.
- Learning rates: `ZeroDivisionError` for a score of exactly 0; decay below the minimum raises the rate; one-string tuples break the saved
  file; scores named `:meta:..` move to the meta data.
- Engine: `start_epoch` without a model starts at 1; `load` uses the epoch of the loaded model; cleanup `KeyError`; with
  `save_interval >= 2` and `keep_last_n = 1` the only resumable checkpoint can be deleted.
- BPE: words with `</w>` lose it; empty word fails in version 0.2. Sampling: a merge symbol of one character.
- Vocabulary: duplicates, negative ids, postfix, unknown label -1.
- CombinedDataset: negative probabilities near the end of the epoch; empty sub-dataset with sampling; re-init of the same epoch.
- MetaDataset: re-init of the same epoch keeps a custom list, is not rewound, and after a failed init keeps the old order.
- ConcatDataset: explicit lists fail; windows past the end fail; re-init of the same epoch.
- MultiEpochDataset: empty inner epoch, skipped sequences, empty list.
- Dims: `(y * (x // b)) // c` becomes `y * (x // (b * c))`; `z.sub_left(x).sub_left(y)` has the sizes of `z` (sums are cut at zero);
  `get_dim_value` of `x - y` is computed from the maxima and can be smaller than a sequence.
- `rf.scan` with `cond`: when `cond` gets false, the final state is the one before the last (counted) iteration: `while s < 3: s += 1` from 0
  returns the state 2 with length 3. Also with `cond_before_body=False`.
- `SimpleHDFWriter` with `extend_existing_file`: if the file has two extra keys and `extra_type` is not given, the first new sequence gets the
  total number of frames as its length, all data after is wrong (`extend_wrong`). Extra keys cannot be added after the first sequence; an
  empty batch, or opening a file without sequences, are errors.
- `HDFDatasetWriter`: "data" as a target is renamed to "classes" but its column of lengths is by the old name (`dump_swapped`); `end_seq` is
  inclusive, but counted as exclusive in a check (`dump_end_inclusive`).
- `ctc_loss`: a sequence whose labels do not fit in its frames gets loss 0, not infinity, and with `grad_wrt_softmax_in` its error signal is the
  softmax itself, which is neither zero nor the gradient of the reported loss (`ctc_loss_no_alignment`).
- C66: `_eq_simple` ("should exactly replicate the previous `is_equal` logic") does not look at size and kind: two auto-generated dims with the same description and different sizes are `==` while their hashes differ and `is_equal` is false (`eqSimple_hash_fails`; e.g. `FeatureDim("%s:channel" % name, n_out, auto_generated=True)` of two layers of the same name with different sizes); two batch dims with different sizes are `==` but not `is_equal` (`eqSimple_batch_size`); with an auto-generated batch dim `==` is not transitive (`eqSimple_trans_fails`). `is_equal(derived_matches=True)` can be false although `is_equal()` is true, as `get_same_derived_base(same_dim=True)` returns the dim itself if only `same_as` links are followed (`derived_matches_fails`).
- C67: `declare_same_as` changes the hash of the dims, so dicts and sets keyed by dims from before do not find them afterwards (`decl_hash_changes`).
- C68: `pad` with `handle_dynamic_dims` on a dynamic axis without a value raises (`pad_no_value`), and without `handle_dynamic_dims` padding frames get into the sequences (`pad_not_handled`). `slice` ignores `step`: the raw tensor does not fit the dim (`slice_step_wrong`); with a negative end or a negative start alone it raises (`slice_neg_end`, `slice_neg_start`). `shift_right` with a tensor as pad value changes nothing (`shiftRightTensor_wrong`). `reverse_sequence` raises if a masked batch has an empty sequence (`reverse_empty`).
- C70: `window` with the default pad value raises on a dynamic axis (`window_default_raises`); unmasked it sees padding frames (`window_unmasked`).
- C71: the mask value of max, min and argmax is finite (finfo.min), so for valid values below (-inf) the result is the mask value or a padding position (`reduceMax_below`). Not modelled, seen while reading: max over several axes with remaining dims gives `torch.max` a list of axes, which it does not accept.
- C72: `top_k` with k above the length of a sequence gives padding positions (`topK_short`); over several axes with a dynamic one it raises (`splitIdx_dynamic`).
- C73: the counts in `scatter_logmeanexp` include padding frames (`scatterCounts_wrong`); `scatter` max/min with an explicit fill value mixes it into the targets of padding frames (`scatter_max_fill_wrong`); `scatter_argmax` gives the invalid index wherever the index of a padding frame points (`scatterArgmax_padded_wrong`). Not modelled, seen while reading: `scatter(mode="argmax")` passes `invalid_idx=None`; int dtypes in max/min call `numpy.iinfo` on a torch dtype.
- C74: `weight_decay_custom_include_check` gets the name inside the module as `full_param_name` (`custom_name_wrong`); the blacklist and the check without `weight_decay` go to the optimizer constructor, which raises (`groups_errors`).
- C75: optimizer files without `param_names` are loaded by position, so a reordered network gets the state of other parameters (`load_old_format_wrong`). With the same list of names but a frozen parameter in another group loading is refused, while it is accepted if additionally the order differs (`load_ok_iff`).
- C76: `learning_rate_multiplier` has no effect, the first update of the learning rate overwrites it (`lr_multiplier_no_effect`).
- C77: gradients accumulated at the end of an epoch are dropped (`leftover_lost`).
- C78: a sequence call with a non-initial state raises `NotImplementedError` (`callSeq_fails`), so a prompt can only come first.
- C79: the sinusoidal encoding divides by `d/2 - 1`, so 2 features (also 2 per head with rotary positions) raise `ZeroDivisionError` (`divTerm_two`). Not modelled, seen while reading: `LearnedRelativePositionalEncoding.full_matrix` adds `query_offset` None for sequences; a NaN or inf in padded frames passes the mask as `0 * inf`; a sequence of length 0 attends to nothing (0/0).
- **C81/C82** (`py-to-pickle.cpp`): `literal_eval` is documented as `ast.literal_eval` made faster.  (a) Integers outside of signed
  32 bits silently wrap (`int_wraps`: `2147483648` gives `-2147483648`; `literal_eval_iff` has the exact condition).  (b) The output
  buffer of `len + 1000` bytes "should always be enough" but is not: a list of 250 times `0.5` fails with an `AssertionError`
  (`floats_overflow`).  (c) `.5` makes `std::stol` throw, and the process is terminated (`leading_point_crash`); so do range errors
  of `strtod` and integers beyond 64 bits.  (d) Text behind the first literal is ignored, so `1e5` gives `1`, `0x10` gives `0`,
  `'a' 'b'` gives `'a'` and a string in three quotes gives the empty string (`trailing_ignored`).  (e) A backslash at a line end
  stands for the line end.  (f) `{1:}` and `[1,,2]` are accepted.  (g) `True`, tuples, bytes, upper case hex digits and octal
  escapes are rejected.
- **C83** (`tensor_ops.cpp`): (a) If `b` has a dim more often than `a`, the loop which collects these dims runs to `bDimsCount` instead
  of the number of dims of `b`, so a `SystemError` ("non-deterministic dim count") is raised unless they are in front
  (`native_system_error`); the Python code works.  (b) For operands with equal dims the native fast path goes by identity over all
  dims, the Python code axis by axis, so a vector is added to another axis of a square matrix (`native_values_differ`).  (c) The order
  of the dims of the result (`native_dims_differ`) and its feature dim (`native_feature_dim`) depend on whether the native module
  is there; natively the feature dim depends on the order of the operands.  (d) A number together with `dim_order` is a
  `TypeError` natively (`native_scalar_dim_order`).
- **C84** (`tensor_ops.cpp` 1246-1262): the native check asks whether the dims of an operand are a subset of the dims of the result,
  not the converse, so `allow_broadcast_all_sources` is never enforced (`native_allow_ignored`, `native_allow_not_enforced`).  In
  `_isTupleSubsetReorderList` the second search starts at the end of the list, so it finds nothing.
- **C85** (`math_.py` 188-205): without the native module `0 - b` is `b`, `a ** -1` is `-a`, `a or True` is `a`, `True or b` is `b`, and
  `a // 1` is not rounded (`shortcut_wrong`; exact: `shortcut_partial`).
- **C86** (`torch/frontend/_backend.py` 1344-1352; `frontend/matmul.py` 34-36): the documented masking of dynamic reduce dims raises
  `NotImplementedError` for every pair of tensors (`dynamic_not_implemented`).  A square matrix as first operand raises an error
  although the same matrix works as second operand (`square_first_fails`).
- **C87** (`torch/frontend/_backend.py` 993-1053): an index tensor with negative values counts from the end for some numbers of dims
  and raises for others (`negative_depends_on_dims`).  `clip_to_valid` with an empty sequence in the batch gives index -1, and the
  whole call fails (`clip_empty_sequence_fails`), so clipping is proved for non-empty sequences only.
- **C88** (`torch/engine.py` 1300-1324, `torch/data/pipeline.py` 66-71, `torch/data/extern_data.py` 133-139): the batches always have the
  single numbers `complete_frac`, `num_seqs` and `epoch`, which have no batch axis, so `raw_dict_split_batch` raises `IndexError` when
  it cuts them.  `forward_auto_split_batch_on_oom` hence never works: `auto_split_never_works` (whatever the batches, if the call
  succeeds, no step ran out of memory).
- **C89** (`torch/data/extern_data.py` 149-159): `_make_split_seq_from_num_splits(4, 5)` is `[2, 2, 1, 0]`; the empty part makes
  `torch.max` raise (`split_empty_piece`).  With two parts, the only use, this cannot happen (`makeSplits_two`).
- **C90** (`torch/util/gradient_checkpoint.py` 230-480): the recomputed values differ from the first ones when two names of devices mean
  the same generator (`cuda` and `cuda:0`: `two_names_wrong`), when an operation draws from a generator of its own, as
  `rf.random(static=True)` does (`own_generator_wrong`), and when an operation changes a tensor from outside of the scope in place,
  which is done twice (`inplace_outside_wrong`).  A tensor from outside which is changed before the backward pass gives other values
  without any error (`changed_outside_wrong`), where autograd alone would raise one.
- **C91** (`torch/util/gradient_checkpoint.py` 154-167, 501-583): only the scope which registers first is put on the own stack, not the
  blocks around it.  So a checkpoint scope inside of a `saved_tensors_hooks` block, or of another checkpoint scope, with tensors alive
  at its end, makes leaving the outer one raise "mismatch" (`nested_in_block_raises`, `nested_checkpoints_raise`).  The methods are
  replaced for all threads, but the attributes exist only in threads which registered, so other threads get an `AttributeError` or
  "mismatch" (`other_thread_raises`).  A checkpoint scope with tensors alive stays on top, so the hooks of the enclosing block, which is
  still open, are not used (`open_block_hidden`).
- **C92** (`util/train_proc_manager.py` 62): the comparison with the final epoch is equality, so with models beyond it (after `num_epochs` was made smaller) the training is started once although nothing is to do (`beyond_final_starts`).
- **C93** (`datasets/postprocessing.py` 282-283, 325-330): if the wrapped dataset does not know its `complete_frac`, the entry is in the tensor dict without a value, and `float(None)` raises for the first sequence, unless the function drops the entry (`no_frac_raises`).  With `map_seq_stream_preserves_num_seqs`, sequences yielded beyond the number are silently dropped (`extra_dropped`): the assertion for them is not reached, as they are never asked for.
- **C94** Distributed training: (a) with DDP, a model with buffers and an eval dataset, rank 0 evaluates through the DDP module, whose forward broadcasts buffers, while the other ranks wait for the has-data flag: deadlock (`buffers_deadlock`); (b) an empty eval dataset fails on rank 0 only and the others wait forever (`empty_eval_deadlock`); (c) accum_grad_multiple_step depending on the part of the epoch makes ranks update in different steps: deadlock with no_sync (`accum_deadlock`), different parameters without (`accum_diverges`); (d) with reduce_type param and a number of steps in the epoch which is no multiple of param_sync_step, the saved model is that of rank 0, not the mean (`param_not_synced`).
- **C96** ConcatSeqsDataset: pad_narrow_data_to_multiple_of_target_len uses the length of the target before remove_in_between_postfix is applied to it, so with both options the alignment promised in the documentation is lost (`pad_misaligned`).
- **C97** C97: without mask (behavior version up to 22) results depend on the padding (`unmasked_depends`); strided "same" without consistent padding (behavior version up to 23) depends on the longest sequence (`strided_depends`) and can drop the first frame (`strided_crops`); "same" with dilation, an odd filter and no striding pads as without dilation, so the result is shorter than its dim (`dilated_same_short`); average pooling with "same" counts the padding of shorter sequences (`avg_depends`, `avg_even_counts`); pooling with "same", stride 1 and even size, or a stride larger than the size, raises (`pool_even_raises`, `pool_stride_raises`); "valid" raises if all sequences are shorter than the filter (`valid_short_raises`).
- **C98** with an entry of init_for_train=True with priority over an "always" entry, a frozen parameter changes its value when training is resumed (`resume_changes`); a random-init declaration (filename None) works only if its key sorts before the others (`random_order`); recognition without checkpoint and with a prefix entry leaves the rest of the model random without error (`recog_random`); an "always" entry with a buffer raises (`always_buffer_raises`); var_name_mapping cannot exchange two names (`mapping_swap`).
- **C99** `static_dim + time` (a named static dim as first operand) is cached in the static dim, whose cache is never reset: in the next step the cached dim with the sizes of the previous batch is returned (`cached_stale`). A derived dim kept over steps keeps its sizes, as `reset_raw` clears the cache before it goes through its values (`held_stale`). Two entries which share a dim may have different lengths; those of the first one are used (`lengths_unchecked`).
- **C100** `set_deep` raises ValueError for every name with two or more dots, because of `rsplit(".", 2)` (`set_long_raises`). With shared modules, the names of `named_parameters` (breadth first) and those of the PyTorch module (depth first) differ (`names_differ`). With a cycle the conversion to PyTorch and `apply` do not end, while `named_parameters` works (`cyclic_pt`, `cyclic_apply`).
- **C101** The running variance depends on whether the time axis is dynamic: the masked path tracks the biased variance (as documented), torch's fused op the unbiased one (`running_var_differs`). `moments` with use_mask=False uses the masked mean with the unmasked variance (`moments_mixed`). A single frame gives a variance of 0 with masking, an error without (`one_frame`).
- **C102** The documented 'sum of prob over included labels does not change' is wrong if excluded labels have probability: the shift is scaled by the sum over all labels, so the sum grows (`exclude_sum`). Excluding a label twice counts it twice (`exclude_twice`). With excluded labels, scale and shift are raw tensors of shape [D] and are broadcast along the last axis, wrong or an error if the label axis is not the last one (`exclude_axis`).
- **C103** rf.LSTM raises for a batch with an empty sequence, rf.ZoneoutLSTM does not: its state stays as it is (`empty_differs`). ZoneoutLSTM with factor 1 raises in training only (`zoneout_one`).
- **C104** An option like -b loses against a file given as --config on the same command line, since the file is loaded after the options (`option_loses`). The command line is applied twice; the second time a value may have become a string, and then quotes stay (`quotes_twice`). ++t false raises NameError where the config file has a bool: only SyntaxError is caught (`false_raises`).
- **C105** A typed None is the default for value and list, but None for int, float and bool (`none_differs`). is_true of a typed string is true if it is not empty, also for "false" (`str_is_true`). value with an index gives a character of a typed string (`index_differs`). The copy of a config (pickle) loses all untyped options, e.g. those from the command line (`copy_loses`). With TensorFlow imported, global_config_ctx does not restore the config: the one on the graph stays (`ctx_leaks`).
- **C106** specaugment with an explicit max_consecutive_feature_dims and fewer than 5 features may ask topk for more indices than there are features and raise (theorem small_raises); with the default it cannot (default_fits). A short sequence in a batch with longer ones may be masked completely (short_all), since the number of masks is taken from the padded length.
- **C108** merge_dims of a dim of size 1 and a dim with lengths forgets the lengths: the test is on `capacity`, which is not set, and not on the size (merged_forgets). The lengths stay also when the batch dim itself is among the merged dims after the time dim, as the batch dim needs no masking.
- **C109** replace_dim does not check the size of the new dim: the result is a tensor whose raw shape is not that of its dims (replace_right); stack with a given out_dim of another size likewise (stack_right).
- **C110** num_elements_of_shape (and thus masked means and the normalization of losses) raises when the size of S depends on T alone and the size of T on B alone: B is postponed but not a dim of the product of sizes (`count_chain`), though the plain sum works.
- **C111** a batch without any frame makes the epoch raise ZeroDivisionError, because the score of every step is computed for the log (`epoch_empty_batch`), though the score over the epoch is defined.
- **C112** between two epochs the buffer is reset by the adding thread only after init_seq_order of the reader has returned. A reader which is faster gets sequences of the old epoch (`stale_epoch`) or an assertion error (`stale_assertion`). A request for more than 200 sequences made before the reset is forgotten, then both threads wait forever (`lost_request_deadlock`). ExternSprintDataset has the same race: its reader thread resets the buffer itself.
- **C113** a reader which calls load_seqs while the thread of the start cache (or of an earlier load_seqs) runs can get zeros instead of data: the second thread takes allocated sequences for loaded (`race_wrong_data`). An epoch of the same length with other sequences raises KeyError when everything is cached (`other_seqs_keyError`); an epoch whose length happens to be the number of sequences cached at the start is taken for a reordering of a full cache, load_seqs returns at once and get_data fails (`short_epoch_fails`); init_seq_order returns False although the order changed when it goes back to the first order (`changed_order_false`).
- **C114** load_seqs never pays for the sequences asked for but gets their frames back when they are deleted, so the budget of free frames grows with every call and the limit is not kept (`load_accounts_partial`, `limit_not_kept`); remove_alloc_interval(0, num_seqs) raises IndexError when the last sequence is not in memory (`remove_all_indexError`).
- **C115** with masking, scatter_argmax gives invalid_idx for every out index to which a frame of padding points (the padding is filled with invalid_idx and then the minimum is taken): argmax_padding. scatter_logmeanexp counts such padding in the mean (logmeanexp_counts, logmeanexp_padding), and a given fill_value is added or compared once per such frame (sum_fill_padding, max_fill_padding). Not modelled further: scatter(mode=argmax) without fill_value passes invalid_idx=None, scatter_logsumexp with fill_value passes a tensor as fill value, integer max/min without fill_value asks numpy.iinfo for a PyTorch dtype; all of these raise.
- **C116** Sprint archives (sprint/cache.py): an archive which was not finalized keeps the flag for a table and can not be opened (`unfinalized`), and the scan for archives without a table looks only at multiples of four although the first entry is at offset 9, so it misses it (`scan_misses_first`). A weighted alignment with an explicit time is read wrongly: num_items keeps a half after `/=`, so one item too many is read (`weighted_time_wrong`, `items_of_time_frame`). The seventh state of an allophone comes out as the sixth (`get_state_seventh`). An empty line in the allophone file shifts the numbers of FileArchive but not those of AllophoneLabeling (`allophones_differ`). In a bundle, equal short names of two archives silently give the last one (`bundle_short_ambiguous`), while one archive drops all short names then.
- **C118** C118: a plain corpus file whose last line has no newline loses that line (a gzipped one does not): `last_line_lost`; with skip_empty_lines, whitespace-only lines stay in plain files but are skipped in gzipped ones: `blank_line_kept`; an empty plain file is a ValueError from mmap: `empty_file_fails`.
- **C119** C119: with auto_replace_unknown_symbol and an unknown symbol which is itself not in the symbol map (the default is `[UNKNOWN]`), the loop never ends: `unknown_not_known`; with replacements which are replaced again, the result depends on what was read before: `replace_depends_on_history`; with error_on_invalid_seq=False the number of sequences of the epoch counts the skipped ones, so the last ones do not exist: `skipped_missing`; an empty sequence is an AssertionError for delayed data; ids of a symbol map with gaps can overflow the dtype: `dtype_gap`.
- **C120** C120: `AllophoneState.from_index` is not the inverse of `index` as soon as there is context: the phones are decoded in the wrong order, so the phone and its right context change places, and missing context becomes an empty phone: `from_index_reversed`, `from_index_wrong`. For a context of two or more phones, the left context is stored with the farthest phone first, while `phoneme(-1)` takes the first one: `history_wrong`.
- **C121** `TranslationDataset._get_data` asserts `line_nr <= self._data_len`: for the number just behind the last line there is no error, it waits for ever (`behind_end_waits`). `seq_list_file` can not be used: its numbers are sliced like strings (`seq_list_file_fails`). `get_all_tags` misses the lines which are not loaded yet (`all_tags_missing`). `get_data_dim` tells the dimension of the sources for the targets (`data_dim_wrong`).
- **C122** Hooks on `__call__` of two objects of one class: the wrappers of the class are nested, calling an object with hooks recurses without end, calling any other object of the class fails with an assertion (`call_broken`). `register_parametrization` which fails leaves the class of the module changed: it counts as parametrized (`failed_register_stays`). `is_parametrized` is true for every method name of the class (`method_is_parametrized`).
- **C123** `OggZipDataset`: an empty segment file means no filter at all, not an empty dataset (`empty_segments_all`); `fixed_random_subset=1.0` and fractions giving no entry are an AssertionError, 0 means everything (`subset_ends`, `subset_frac_partial`).
- **C124** `rf.PiecewiseLinear` with a single point gives NaN at its own key (zero by zero), its value everywhere else (`one_point`).
- **C125** `rf.Cache`: a key is compared by sizes only, so `sinusoidal_positional_encoding` for an axis of size 1 after one for `single_step_dim` (also of size 1) gives the encoding without this axis (`single_step_wrong`); a key with one dim twice also matches two dims of this size and then maps both to one (`repeated_dim_wrong`); a dim of known size which is only in the key may be freed, later hits are then an AssertionError (`dead_dim_error`); a dim without any size information is a TypeError at the second lookup (`unknown_dim_error`).
- **C126** C126: `as_raw_tensor_dict` accepts a tensor with the name of the size of a static dim of another tensor (`a:size0`), if that size is not written; `assign_from_raw_tensor_dict_` then takes it for the size and fails (`names_clash`). The round trip is proved for names which are not names of sizes.
- **C127** C127: when the number of sequences is not known, `complete_frac` is -1 and is passed to `_print_process`, which asserts that it is in (0, 1]: with log verbosity 5 the first step of the epoch fails (`train_unknown_error`); `(unk epoch len)` can not be reached. `Dataset.get_complete_frac` without `allow_only_lr_suitable` calls `math.isinf(None)` when there is no estimate, a TypeError (`no_estimate_error`), and asserts that the index is below the estimate, which does not have to be exact (`small_estimate_error`). `MultiProcDataset` computes `max(None, 0.0)`, a TypeError, when the wrapped dataset does not know its number (`multi_proc_unknown_error`). A fraction of 0 is accepted by the data pipe and refused by `_print_process` (`zero_frac`). The data pipe does not compare fractions over a sequence without one (`gap_not_checked`). `SprintDatasetBase.get_complete_frac` does not pass `allow_only_lr_suitable` on. `ReturnnDatasetPerEpochMapDataPipe` and `ReturnnDatasetFullMapDataPipe` define `__int__` instead of `__init__`, so they can not be created with a dataset (not modelled).
- **C128** C128: `TextDictDataset.init_seq_order(seq_order=...)` does not load the file, and `_collect_single_seq` does not either: with an order given first, reading raises TypeError (None is not subscriptable) for every file, unless a tag was asked for before (`order_first_error`).
- **C129** C129: when a dynamic sequence dim is not itself a leaf of the nested structure, `masked_select_nested` packs the tensor but keeps the dim with the sizes before packing, without an error (`dim_missing`).
- **C131** C131: `MapDatasetWrapper.supports_seq_order_sorting` raises AssertionError for a `FromListDataset` without `sort_data_key` (and IndexError for an empty one) instead of returning False; `Engine.forward_with_callback` asks it, unless `sort_dataset` is off or the dataset is sorted already (`list_sorting_error`).
- **C132** C132: `RunningMean.__call__` asserts `all(d in self.shape for d in x.dims)`, which is the wrong way round: the documented input [B,T,F] for a mean [F] raises AssertionError in every training call (theorem documented_use_fails), although the next line reduces over exactly these dims; outside of training the same call passes silently. `is_prob_distribution` with a sequence of dims raises AttributeError (theorem start).
- **C134** C134: the documentation of `dropout` says that 100% masks everything, but `drop_prob=1` raises ValueError (theorem refused), and that the output is scaled by 1/dropout, where it is scaled by 1/(1-drop_prob) (theorem each_cell).
- **C135** C135: `TensorArray` documents a functional API where `push_back` returns a new object, but in eager mode `tensor_array_push_back` appends to the shared list, so the old array changes too, and two pushes on one array see each other (theorem old_array_changes).
- **C136** C136: `compute_bleu` leaves orders for which the translations have no n-gram out of the mean (`for p in precisions if p`) but still divides by the highest order, so with `use_bp=False` the one-word translation of a four-word reference gets the perfect score 1 (theorem short_translation_perfect); by the definition of BLEU it would be 0.
- **C137** C137: the documentation of `pack_padded` says that without padded frames dims=[B,T] gives the reshaped tensor [B*T,...], but `sequence_mask` then gives a scalar without dims, and `masked_select` raises ValueError because the dims are not a subset of the mask's (theorem unpadded_refused); the same for a static dim beside padded ones, e.g. [B,S,T] with lengths only over B (theorem static_between_refused), and for `pad_packed`.
- **C139** C139: iterating over `CollectionReadCheckCovered` gives the values, not the keys as for the dict it wraps (theorem `reads`).
- **C141** C141: `NumpyDumpDataset` without `end_seq` uses `end_seq = last_seq` although the end is exclusive, so the last file is never used and a single file is an assertion (theorem `last_file_dropped`). `_load_seqs` first removes all old sequences, and `_add_cache_seq` then accepts only sequence 0 for an empty cache, so `load_seqs(0, 2)` followed by `load_seqs(2, 4)` is an assertion (theorem `next_batch_fails`).
- **C142** C142: `StereoHdfDataset.num_seqs` is `total // partition_epoch` in every epoch, also for the last partition which has the rest in addition, so the rest is never read, and nothing at all with less sequences than partitions (theorem `rest_dropped`).
- **C143** C143: `RawWavDataset` loses short signals: if the signal is shorter than a frame by the shift or more there are no frames although padding is on, and by twice the shift or more it is a ValueError (theorem `short_signal_lost`).
- **C147** Compiled libraries (C147): the info keys which are compared leave out the C++ ABI and the include paths (wrong_abi_reached); the info file is not written atomically, and one written in part makes every later run fail (torn_info_stays); after waiting for the lock the library is compiled again in place without a test (waited_incomplete); a use touches info.py while the cleanup looks at the time of the library (use_does_not_count).
- **C148** C148: the docstring of `expand_env_vars` promises `${var}`, but the pattern has no group for braces, so that every text with it is a ValueError (`braces_refused`).
