{"id": "C01", "title": "Partitions and shards tile the epoch", "statement": "With partition_epoch=P and num_shards=S, the P*S slices handed out over P consecutive epochs (one full epoch) and all S shard indices, concatenated in (sub-epoch, shard) order, are exactly the sequence order of the full epoch: no sequence is lost, duplicated or reordered, and slice sizes differ by at most one.", "quantifier": "every sequence order (any length, including shorter than P*S), every P>=1, S>=1, every full epoch", "why_tests_cant": "Tests pick a few lengths; off-by-one errors show only for particular residues of n modulo P*S.", "anchors": ["returnn/datasets/basic.py:Dataset._apply_partition_epoch_and_sharding"]}
{"id": "C02", "title": "Every sequence ordering is a permutation and delivers its advertised order", "statement": "For seq_ordering default, reverse, sorted, sorted_reverse, random, sort_bin_shuffle(_x2) and laplace, get_seq_order_for_epoch (no partition/repeat/filter) returns each corpus index exactly once, whatever the shuffles do; sorted/sorted_reverse are monotone in the length and keep corpus order among equal lengths.", "quantifier": "every number of seqs, every length function, every number of bins, every outcome of the random generator", "why_tests_cant": "The outcome depends on all shuffles and all length tables; tests fix a seed.", "anchors": ["returnn/datasets/basic.py:Dataset.get_seq_order_for_epoch"]}
{"id": "C03", "title": "Every sequence is seen exactly once per full epoch", "statement": "Iterating the P sub-epochs of one full epoch (each computed by its own get_seq_order_for_epoch call, with random ordering) and all S shards visits every corpus sequence exactly once, because the seed is constant within the full epoch; in the next full epoch again exactly once.", "quantifier": "every corpus size, P, S, seed offset, epoch number, pseudo random generator", "why_tests_cant": "Cross-epoch coverage is a statement about an unbounded number of epochs and every RNG.", "anchors": ["returnn/datasets/basic.py:Dataset.get_seq_order_for_epoch", "returnn/datasets/basic.py:Dataset._get_random_seed_for_epoch", "returnn/datasets/basic.py:Dataset._apply_partition_epoch_and_sharding"]}
{"id": "C04", "title": "laplace ordering alternates sorted bins", "statement": "laplace:.N splits the shuffled seqs into the requested bins; lengths are non-decreasing in even bins and non-increasing in odd bins, so there is no length jump inside a bin against the direction, and every bin holds floor or ceil of n/bins seqs.", "quantifier": "every n, bin count >=1, length table and shuffle outcome", "why_tests_cant": "Boundary arithmetic i*n//bins must be right for all n and bins.", "anchors": ["returnn/datasets/basic.py:Dataset.get_seq_order_for_epoch"]}
{"id": "C05", "title": "repeat_epoch, unique_seq_tags and seq_tags_filter", "statement": "After ordering and partitioning, repeat_epoch=r yields the order r times in a row; unique_seq_tags keeps exactly the first occurrence of each tag; seq_tags_filter keeps exactly the allowed tags; relative order is preserved by all of them.", "quantifier": "every order, tag assignment, filter set, repeat count", "why_tests_cant": "Tag collisions and combinations of the options are unbounded.", "anchors": ["returnn/datasets/basic.py:Dataset.get_seq_order_for_epoch"]}
{"id": "C06", "title": "DistributeFilesDataset splits files into contiguous non-empty bins", "statement": "Distributing n>=num_bins files over num_bins bins by size never fails, returns exactly num_bins non-empty bins, and the concatenation of the bins is the file order: every file is used exactly once.", "quantifier": "every file list, every size assignment (including zero sizes), every num_bins with 1<=num_bins<=n", "why_tests_cant": "The greedy rule has several branches with asserts and a division; only adversarial size vectors reach them.", "anchors": ["returnn/datasets/distrib_files.py:DistributeFilesDataset._distribute_evenly_by_size"]}
{"id": "C07", "title": "DistributeFilesDataset covers every file once per full epoch over all workers", "statement": "Over the P sub-epochs of a full epoch and all S distributed workers, each file is assigned to exactly one (sub-epoch, worker) pair.", "quantifier": "every file list, sizes, P, S with P*S<=n, every shuffling", "why_tests_cant": "Needs every rank and every sub-epoch together; unit tests run a single rank.", "anchors": ["returnn/datasets/distrib_files.py:DistributeFilesDataset.init_seq_order", "returnn/datasets/distrib_files.py:DistributeFilesDataset._distribute_evenly_by_size"]}
{"id": "C08", "title": "Batching pipe loses nothing and respects limits", "statement": "The torch batching pipe emits non-empty batches whose concatenation is the input stream; no batch has more than max_seqs seqs; padded size exceeds batch_size only for single-seq batches; a batch is closed only when the next seq would break a limit.", "quantifier": "every input stream, every (per-key) length assignment, every max_seqs>=1 and batch_size", "why_tests_cant": "Depends on unbounded streams and per-key lengths.", "anchors": ["returnn/torch/data/pipeline.py:BatchingIterDataPipe.__iter__"]}
{"id": "C09", "title": "Bucket batching keeps every admissible sequence exactly once", "statement": "Bucket ordering yields each sequence that fits the largest bucket exactly once and drops exactly the longer ones; every batch is non-empty, comes from one bucket, has at most the bucket's batch size, and sequences of a bucket keep their relative order.", "quantifier": "every stream, every bucket configuration, every final shuffle of leftovers", "why_tests_cant": "The pipeline state depends on the entire history of the stream.", "anchors": ["returnn/torch/data/pipeline.py:BucketOrderingIterDataPipe.__iter__"]}
{"id": "C10", "title": "Torch chunking covers the sequence", "statement": "Chunking pipe: chunk i of a sequence is exactly frames [i*step, i*step+size) cut at the end; with step<=size and min_chunk_size=0 every frame occurs in a chunk; with step==size the chunks concatenate to the sequence; only chunks shorter than min_chunk_size are dropped; chunk counts agree for all keys or the pipe fails.", "quantifier": "every sequence length, chunk size/step, min chunk size, multi-key data", "why_tests_cant": "Arithmetic on all lengths and residues.", "anchors": ["returnn/torch/data/pipeline.py:ChunkingIterDataPipe.__iter__"]}
{"id": "C11", "title": "Length filter and buffer shuffling are faithful stream transformers", "statement": "LenFilterDataPipe outputs exactly the sequences within [min,max], in order. ShufflingDataPipe outputs every sequence exactly once, an element moves forward by less than the buffer size, and monotonic keys keep their order.", "quantifier": "every stream, buffer size, RNG outcome", "why_tests_cant": "Stream-length and RNG are unbounded.", "anchors": ["returnn/torch/data/pipeline.py:LenFilterDataPipe", "returnn/torch/data/pipeline.py:ShufflingDataPipe"]}
{"id": "C12", "title": "Legacy chunked iteration", "statement": "Dataset.iterate_seqs with chunking (size, step) yields for a sequence of length len the slices [i*step, min(i*step+size, len)); with step<=size and min_chunk_size 0 it covers all frames and ends.", "quantifier": "every length, size, step>=1, min_chunk_size", "why_tests_cant": "Loop termination and coverage are arithmetic facts about all values.", "anchors": ["returnn/datasets/basic.py:Dataset.iterate_seqs"]}
{"id": "C13", "title": "Legacy batch generator partitions the sequence stream", "statement": "Dataset._generate_batches (recurrent) yields batches that contain each chunk exactly once, in order; no batch has more than max_seqs slices; padded size is at most batch_size unless the batch is a single slice; max_total_num_seqs bounds the number of sequences.", "quantifier": "every stream of chunks and every limit", "why_tests_cant": "All boundary combinations of three limits.", "anchors": ["returnn/datasets/basic.py:Dataset._generate_batches", "returnn/engine/batch.py:Batch.add_sequence_as_slice"]}
{"id": "C14", "title": "BatchSetGenerator behaves as a cursor over a list", "statement": "Any interleaving of peek_next_n, advance, has_more and reset observes exactly the batches of the generator, in order, each advanced over once.", "quantifier": "every generator and every history of API calls", "why_tests_cant": "Histories are unbounded.", "anchors": ["returnn/engine/batch.py:BatchSetGenerator"]}
{"id": "C15", "title": "LRU cache refines a bounded association list", "statement": "Under any history of calls, cache_set, cache_peek, cache_pop, cache_pop_oldest, cache_set_maxsize and cache_clear, the linked-list implementation behaves as a list of (key,value) ordered by recency: at most maxsize entries, eviction removes the least recently used, lookups return the value stored for that key, hits+misses count lookups.", "quantifier": "every history of operations, every key/value type, every maxsize", "why_tests_cant": "Pointer-structure corruption appears only after particular histories.", "anchors": ["returnn/util/lru_cache.py:_lru_cache_wrapper"]}
{"id": "C16", "title": "Memoised calls are transparent and never corrupt the cache", "statement": "A call of the wrapped function returns what the user function returns for the same arguments, also when the user function re-enters the cache API while computing.", "quantifier": "every pure user function, every reentrant/concurrent interleaving at the lock boundaries", "why_tests_cant": "Races between the unlocked user call and other cache operations are schedule dependent.", "anchors": ["returnn/util/lru_cache.py:_lru_cache_wrapper"]}
{"id": "C17", "title": "NumbersDict arithmetic is key-wise", "statement": "Binary operations on NumbersDict act key-wise, with a broadcast value for missing keys; max/min are least upper/greatest lower bounds per key; any_compare is true iff some key compares.", "quantifier": "every pair of dicts and broadcast values", "why_tests_cant": "Mix of explicit keys, broadcast values and missing values is unbounded.", "anchors": ["returnn/util/basic.py:NumbersDict"]}
{"id": "C18", "title": "Pickled object framing over pipes round-trips", "statement": "Any sequence of objects written with write_pickled_object to a pipe is read back by read_pickled_object one by one, unchanged, whatever chunk sizes the OS returns; a truncated stream raises EOFError and never yields a wrong object.", "quantifier": "every sequence of objects, every split of the byte stream into reads, every truncation point", "why_tests_cant": "All chunkings and all crash points of the writer.", "anchors": ["returnn/util/basic.py:read_bytes_to_new_buffer", "returnn/util/basic.py:read_pickled_object", "returnn/util/basic.py:write_pickled_object"]}
{"id": "C19", "title": "StepFunction returns the value of the nearest key", "statement": "StepFunction(values)(x) is the value at a key with minimal distance to x, the lower key on ties.", "quantifier": "every non-empty table and every x", "why_tests_cant": "Boundary at ties and ends for every table.", "anchors": ["returnn/util/math.py:StepFunction"]}
{"id": "C20", "title": "Integer helpers", "statement": "ceil_div(a,b) is the least q with q*b>=a; next_power_of_two(n) is the least power of two >= n.", "quantifier": "all integers a, b>0, n>=1", "why_tests_cant": "All integers.", "anchors": ["returnn/util/math.py:ceil_div", "returnn/util/math.py:next_power_of_two"]}
{"id": "C21", "title": "binary_search_any and the epoch-wise length filter", "statement": "binary_search_any finds an index with cmp=0 if the comparison is monotone and there is one, else the insertion point; EpochWiseFilter keeps a subsequence of the order whose mean length is at most max_mean_len and is the largest such prefix of the length-sorted list.", "quantifier": "every monotone comparison, every range, every length table", "why_tests_cant": "Boundary errors of bisection depend on the position.", "anchors": ["returnn/util/basic.py:binary_search_any", "returnn/datasets/meta.py:EpochWiseFilter.filter_epoch"]}
{"id": "C22", "title": "List utilities", "statement": "find_ranges returns the maximal runs of consecutive numbers and covers exactly the input; uniq removes consecutive duplicates only; slice_pad_zeros(x,b,e) has length e-b and equals x on the overlap, 0 elsewhere.", "quantifier": "all lists and all integer bounds, including out of range ones", "why_tests_cant": "All overlaps of ranges.", "anchors": ["returnn/util/basic.py:find_ranges", "returnn/util/basic.py:uniq", "returnn/util/basic.py:slice_pad_zeros"]}
{"id": "C23", "title": "LaplaceOrdering post-processing keeps the stream", "statement": "LaplaceOrdering outputs a permutation of its input stream, works on consecutive bins of num_seqs_per_bin, sorts bins alternately ascending/descending, and leaves the complete_frac sequence in original order.", "quantifier": "every stream and bin size", "why_tests_cant": "Stream length and lengths unbounded.", "anchors": ["returnn/datasets/postprocessing.py:LaplaceOrdering.__call__"]}
{"id": "C24", "title": "MultiProcDataset is equivalent to the wrapped dataset", "statement": "With W workers, sequence idx of MultiProcDataset is sequence idx of the wrapped dataset's order, and the total is the same, for both sharding methods.", "quantifier": "every order, every W>=1, every partition/repeat configuration", "why_tests_cant": "Depends on N mod W and on options combinations.", "anchors": ["returnn/datasets/multi_proc.py:MultiProcDataset._collect_single_seq", "returnn/datasets/multi_proc.py:MultiProcDataset._worker_proc_loop"]}
{"id": "C25", "title": "CachedDataset2 serves the right sequence under any monotone access pattern", "statement": "For any sequence of load_seqs(start,end) with non-decreasing start, get_data(i) for i in the window returns the i-th collected sequence; each sequence is collected exactly once in order; the cache never holds sequences before the window.", "quantifier": "every access history and dataset length", "why_tests_cant": "Histories of calls.", "anchors": ["returnn/datasets/cached2.py:CachedDataset2._load_seqs", "returnn/datasets/cached2.py:CachedDataset2.is_less_than_num_seqs"]}
{"id": "C26", "title": "FileCache never serves a stale or truncated copy", "statement": "After any crash at any point of a copy, any later get_file returns a path whose content equals the source content at some time not before the call's check, provided source modification times grow with each change.", "quantifier": "every interleaving of source updates, copies and crashes at every step", "why_tests_cant": "Crash points and file histories cannot be enumerated by tests.", "anchors": ["returnn/util/file_cache.py:FileCache._copy_file_if_needed", "returnn/util/file_cache.py:FileCache._check_existing_copied_file_maybe_cleanup"]}
{"id": "C27", "title": "FileCache.get_file retries until success", "statement": "get_file succeeds if one of its retries succeeds, and raises the last error otherwise.", "quantifier": "every sequence of per-attempt outcomes", "why_tests_cant": "Requires injected disk-full errors at each attempt.", "anchors": ["returnn/util/file_cache.py:FileCache.get_file"]}
{"id": "C28", "title": "FileCache cleanup policy", "statement": "cleanup deletes every file unused for longer than the maximum age, never a file used within the safety window, deletes oldest first only as long as space is needed, and raises if not enough space could be freed.", "quantifier": "every cache directory content, free space and clock", "why_tests_cant": "All combinations of ages/sizes/free space.", "anchors": ["returnn/util/file_cache.py:FileCache.cleanup"]}
{"id": "C29", "title": "LockFile mutual exclusion", "statement": "Two processes never both hold the lock, as long as no holder keeps it longer than lock_timeout; a stale lock of a crashed process is eventually taken over.", "quantifier": "every interleaving of any number of processes, every crash point", "why_tests_cant": "Interleavings of file system operations.", "anchors": ["returnn/util/basic.py:LockFile"]}
{"id": "C30", "title": "Touch thread keeps exactly the files in use alive", "statement": "After any history of files_extend/files_remove, a file is kept alive iff it was added more often than removed; parent directories likewise.", "quantifier": "every history of adds and removes", "why_tests_cant": "Histories.", "anchors": ["returnn/util/file_cache.py:_TouchFilesThread"]}
{"id": "C31", "title": "Newbob learning rates stay within bounds and only change as configured", "statement": "Learning rates computed by the Newbob controls never fall below min_learning_rate because of decay, never grow without learning_rate_growth, stay constant for at least min_num_epochs_per_new_learning_rate epochs, and are decayed exactly if the relative error improvement is above the threshold.", "quantifier": "every history of errors and epochs", "why_tests_cant": "Histories of training scores.", "anchors": ["returnn/learning_rate_control.py:NewbobRelative", "returnn/learning_rate_control.py:LearningRateControl.calc_learning_rate_decay_or_grow", "returnn/learning_rate_control.py:LearningRateControl.calc_new_learning_rate_for_epoch"]}
{"id": "C32", "title": "cleanup_old_models keeps what must be kept", "statement": "Model cleanup never removes the last n, any of the best n per score, nor configured epochs, removes only existing model epochs, and leaves at most the union of these.", "quantifier": "every set of stored epochs, scores with ties and missing values, and configurations", "why_tests_cant": "Combinatorial.", "anchors": ["returnn/engine/base.py:EngineBase.cleanup_old_models"]}
{"id": "C33", "title": "Resume epoch", "statement": "Training resumes with the epoch right after the last existing checkpoint, and starts at start_epoch/1 if there is none; task-specific load_epoch is respected.", "quantifier": "every set of existing checkpoints and config options", "why_tests_cant": "Combinatorial configuration space.", "anchors": ["returnn/engine/base.py:EngineBase.get_epoch_model", "returnn/engine/base.py:EngineBase.get_train_start_epoch"]}
{"id": "C34", "title": "Stats accumulates exact moments", "statement": "Feeding data in any split of chunks to Stats.collect yields the exact mean, variance and total count of the concatenation.", "quantifier": "every split of every data sequence (exact arithmetic)", "why_tests_cant": "All splits.", "anchors": ["returnn/util/basic.py:Stats"]}
{"id": "C35", "title": "Learning-rate file round-trips and is written atomically", "statement": "Saving the learning-rate control data and loading it gives the same epochs, rates, errors and meta data; a crash during save leaves either the old or the new file.", "quantifier": "every history of epochs, every crash point of save", "why_tests_cant": "Crash points; all data.", "anchors": ["returnn/learning_rate_control.py:LearningRateControl.save", "returnn/learning_rate_control.py:LearningRateControl.EpochData"]}
{"id": "C36", "title": "BPE segmentation is lossless", "statement": "Joining the segments produced by StandardBytePairEncoder for a word (dropping the @@ separators) gives the word, for every merge table and vocabulary.", "quantifier": "every word, merge table, vocabulary and file version", "why_tests_cant": "All merge tables.", "anchors": ["returnn/util/bpe.py:StandardBytePairEncoder._encode_word", "returnn/util/bpe.py:StandardBytePairEncoder._check_vocab_and_split"]}
{"id": "C37", "title": "Sampling BPE finds a valid split iff there is one", "statement": "SamplingBytePairEncoder.get_bpe_split_for_word returns only splits of the word into vocabulary labels (all but the last with the merge symbol), whatever the sampler does, and returns None only if no such split exists.", "quantifier": "every vocabulary, word and random outcome", "why_tests_cant": "Search over all vocabularies and all random choices.", "anchors": ["returnn/util/bpe.py:DepthFirstSearch", "returnn/util/bpe.py:PrefixTree.add"]}
{"id": "C38", "title": "Vocabulary id/label mappings are inverse", "statement": "For a vocabulary with distinct labels, id_to_label and label_to_id are inverse on valid ids; get_seq(get_seq_labels(seq)) == seq; unknown words map to the unknown label.", "quantifier": "every label list and every id sequence", "why_tests_cant": "All vocabularies.", "anchors": ["returnn/datasets/util/vocabulary.py:Vocabulary", "returnn/datasets/util/vocabulary.py:CharacterTargets"]}
{"id": "C39", "title": "CombinedDataset serves the sequence selected by the joint order", "statement": "For every joint order, sequence i of the combined dataset is the sub-dataset sequence that the i-th entry of the order denotes, even though the sub-datasets are re-ordered in between.", "quantifier": "every joint order with repetitions, every number and size of sub-datasets including empty ones", "why_tests_cant": "Index bookkeeping over arbitrary orders.", "anchors": ["returnn/datasets/meta.py:CombinedDataset.init_seq_order", "returnn/datasets/meta.py:CombinedDataset._seq_idx_to_dataset_seq_idx"]}
{"id": "C40", "title": "CombinedDataset sampling visits sub-dataset sequences cyclically", "statement": "With sampling_sizes, consecutive epochs continue exactly where the previous epoch stopped, cycling through the sub-dataset, and random_dataset ordering keeps the order inside each sub-dataset.", "quantifier": "every sampling size, dataset size and epoch; every shuffle", "why_tests_cant": "Unbounded epochs.", "anchors": ["returnn/datasets/meta.py:CombinedDataset._get_sampling_seq_order", "returnn/datasets/meta.py:CombinedDataset._get_random_dataset_seq_order"]}
{"id": "C41", "title": "MultiEpochDataset concatenates inner epochs", "statement": "Outer epoch e yields exactly the sequences of inner epochs (e-1)*m+1 .. e*m in order.", "quantifier": "every inner dataset (any sizes per epoch), every m", "why_tests_cant": "Sizes per inner epoch arbitrary, including empty.", "anchors": ["returnn/datasets/meta.py:MultiEpochDataset._collect_single_seq"]}
{"id": "C42", "title": "Dataset wrappers are re-initialisable", "statement": "init_seq_order(epoch) without an explicit list gives an order which depends on the epoch only, not on earlier calls.", "quantifier": "every history of init_seq_order calls", "why_tests_cant": "Histories.", "anchors": ["returnn/datasets/meta.py:MetaDataset.init_seq_order", "returnn/datasets/meta.py:ConcatDataset.init_seq_order"]}
{"id": "C43", "title": "Worker process serves exactly the requested sequence under any prefetch schedule", "statement": "A dataset worker process (MultiProcDataset, DistributeFilesDataset) answers each monotone request with exactly the requested sequence, or None past the end, however many sequences it prefetched between the requests; a request for a sequence which was already dropped fails and never returns a wrong sequence.", "quantifier": "every dataset, buffer size, request history within the buffer and every interleaving of prefetching with the requests", "why_tests_cant": "The interleaving of prefetching and requests depends on process scheduling.", "anchors": ["returnn/datasets/multi_proc.py:MultiProcDataset._worker_proc_loop", "returnn/datasets/distrib_files.py:_worker_proc_loop"]}
{"id": "C44", "title": "PiecewiseLinear interpolates its points", "statement": "PiecewiseLinear(values)(x) has the given value at each given x, is linear between neighbouring points and constant outside; calls with wrong arguments raise TypeError.", "quantifier": "every table of points, every x, every call form", "why_tests_cant": "All segments and boundaries of all tables.", "anchors": ["returnn/util/math.py:PiecewiseLinear"]}
{"id": "C45", "title": "merge_random_seeds is collision free up to the hash", "statement": "Different lists of 64-bit seeds are hashed as different byte strings, other seeds raise, and the result always fits the requested number of bytes, signed or unsigned.", "quantifier": "every two lists of integers, every hash function, every output size up to 32 bytes", "why_tests_cant": "Injectivity quantifies over all pairs of lists.", "anchors": ["returnn/util/math.py:merge_random_seeds"]}
{"id": "C46", "title": "simplify_and_format_number keeps the value", "statement": "The string returned by simplify_and_format_number(n) denotes the number n.", "quantifier": "every int and float", "why_tests_cant": "All numbers; only some end with zeros or have an exponent.", "anchors": ["returnn/util/math.py:simplify_and_format_number"]}
{"id": "C47", "title": "FileCache keeps all directories above a used file alive", "statement": "For a file in the cache directory, the background thread touches exactly the directories between the cache directory and the file, and computing them ends, for every valid configuration of the cache directory.", "quantifier": "every cache directory name, every file path below it", "why_tests_cant": "Paths of any depth and form; non-termination cannot be observed by a test.", "anchors": ["returnn/util/file_cache.py:_all_parent_dirs", "returnn/util/file_cache.py:_TouchFilesThread.run"]}
{"id": "C48", "title": "get_last_best_epoch returns the best eligible epoch", "statement": "The returned epoch lies in the requested range, has a score with the same key as the latest scored epoch, is not above the filter score, beats the latest score by more than the minimum distance, and no other such epoch has a smaller score; None is returned only if there is no such epoch.", "quantifier": "every history of scores, every range, filter score, only_last_n and distance", "why_tests_cant": "All score histories and parameter combinations.", "anchors": ["returnn/learning_rate_control.py:LearningRateControl.get_last_best_epoch"]}
{"id": "C49", "title": "Crash-resumed training equals uninterrupted training", "statement": "However often and wherever a training process is killed and restarted, every model and optimizer checkpoint it writes equals the one of the uninterrupted training, the learning rate file never holds a wrong rate or score, no restart fails, a restart never goes on with an earlier epoch than before, a crash costs less than save_interval complete epochs, and a process which is not killed any more ends with the same final model.", "quantifier": "every training job (deterministic training and scoring functions, schedules looking at the past), every sequence of starts, steps and kills at every point between two file changes", "why_tests_cant": "Unbounded numbers of crashes at every point; the combination of checkpoint files, optimizer files, learning rate file and cleanup has to be consistent at each of them.", "anchors": ["returnn/torch/engine.py:Engine.train", "returnn/torch/engine.py:Engine.train_epoch", "returnn/torch/engine.py:Engine._check_missing_eval", "returnn/torch/engine.py:Engine._save_optimizer", "returnn/torch/engine.py:Engine.delete_model", "returnn/engine/base.py:EngineBase.cleanup_old_models"]}
{"id": "C50", "title": "MetaDataset: the sub-dataset sequences which are combined belong together", "statement": "After every history of init_seq_order and load_seqs calls on a MetaDataset, whatever the sub-datasets do, each loaded sequence is combined only from sub-dataset sequences which stand on the same line of the sequence lists (and have the tags listed there); and if the sub-datasets follow the order they are given, loading any window of the epoch succeeds.", "quantifier": "all sequence lists, sub-datasets, orders, epochs, and histories of init/load calls", "why_tests_cant": "A misalignment silently pairs inputs with wrong targets; it depends on the history of windows and on the sub-datasets, which tests fix.", "anchors": ["returnn/datasets/meta.py:MetaDataset.init_seq_order", "returnn/datasets/meta.py:MetaDataset._load_seqs", "returnn/datasets/meta.py:MetaDataset._check_dataset_seq"]}
{"id": "C51", "title": "ConcatDataset: the sequences of the sub-datasets one after the other", "statement": "After init_seq_order for a new epoch, any sequence of load_seqs windows whose starts do not go back and which do not go past the end succeeds, and sequence i of the window is sequence i of the concatenation of the sub-datasets' sequences of that epoch.", "quantifier": "all numbers and sizes of sub-datasets (also empty ones) and all sequences of windows", "why_tests_cant": "The offsets are discovered lazily while loading; boundaries, empty sub-datasets and window histories give unboundedly many cases.", "anchors": ["returnn/datasets/meta.py:ConcatDataset._load_seqs", "returnn/datasets/meta.py:ConcatDataset._get_dataset_for_seq_idx", "returnn/datasets/meta.py:ConcatDataset.init_seq_order"]}
{"id": "C52", "title": "Arithmetic on dims is integer arithmetic", "statement": "For dims a, b of any static or dynamic sizes, the dims a+b, b+a, a-b, a.sub_left(b), a*b, b*a, a//b, a.ceildiv_right(b), a.div_left(b), ... have, for each sequence, the size which the same integer arithmetic gives on the sizes of a and b, whatever simplifications (merging equal factors, cancelling x-x, (x/y)*y, splitting sums, merging repeated divisions, cached results) are applied, and sums, differences and products never raise.", "quantifier": "all dims built by the operations, all sizes, all contents of the result caches with right values, all sound dim equalities", "why_tests_cant": "The simplification rules interact over an unbounded set of expression trees; tests only cover a few expressions with a few sizes.", "anchors": ["returnn/tensor/_dim_extra.py:_DimMixin.__add__", "returnn/tensor/_dim_extra.py:_OpMultTerm", "returnn/tensor/_dim_extra.py:_OpLinearTerm"]}
{"id": "C53", "title": "Sizes and padded size of derived dims", "statement": "The size of a derived dim for each sequence is the value of its expression, and get_dim_value (the size of the padded axis) is at least the size of each sequence, and equal to the maximum when derived from a single dynamic dim.", "quantifier": "all derived dims, all batches of sizes", "why_tests_cant": "Depends on every expression and every batch of sizes; tests see a few batches.", "anchors": ["returnn/tensor/_dim_extra.py:_DimMixin.complete_dyn_size", "returnn/tensor/_dim_extra.py:_DimMixin.get_dim_value_tensor"]}
{"id": "C54", "title": "Output size of convolution and pooling", "statement": "For padding valid or a number of frames, the output dim has a frame t exactly if the window starting at t*stride, with filter size and dilation, lies inside of the padded input; for padding same, exactly if t*stride is an input frame.", "quantifier": "all input dims made of sums and products, all filter sizes, strides, dilations, paddings", "why_tests_cant": "The off-by-one cases depend on all of the parameters together.", "anchors": ["returnn/frontend/conv.py:_calc_out_dim"]}
{"id": "C55", "title": "rf.edit_distance is the edit distance", "statement": "For each batch entry rf.edit_distance returns the least number of insertions, deletions and substitutions which turn the first label sequence (its first a_len labels) into the second one (its first b_len labels), whatever is in the padded frames, whichever of the two axes is longer, including empty sequences. The result is symmetric, zero only for equal sequences, and fulfils the triangle inequality.", "quantifier": "all batches of padded integer label sequences of any size and lengths within the padded size", "why_tests_cant": "the number of sequences, lengths and paddings is unbounded; the tests compare a few random batches with a reference implementation", "anchors": ["returnn/frontend/loss.py:edit_distance"]}
{"id": "C56", "title": "Native edit distance op is right for every thread schedule", "statement": "The native op EditDistanceOp returns for each batch entry the edit distance of the two sequences up to their lengths. This holds for every order in which the threads of a diagonal run and for every content of the uninitialised work buffers, and no access is out of the bounds of any array.", "quantifier": "all batch sizes, padded sizes, lengths, labels, thread orders and initial contents of the work buffers", "why_tests_cant": "the schedules and memory contents cannot be enumerated; an out-of-bounds read by one element is usually not visible in a test", "anchors": ["returnn/native_op.py:EditDistanceOp"]}
{"id": "C57", "title": "rf.scan runs each sequence's own loop", "statement": "rf.while_loop(cond, body, initial) returns the state of 'while cond(s): s = body(s)'. rf.scan over an existing dim returns for every batch entry the outputs and the final state of the loop over its own frames, whatever is in the padding. rf.scan with cond returns for every batch entry the number of iterations of its own loop (with cond_before_body and max_seq_len), the outputs of these iterations, and the final state; the loop ends when the loops of all entries have ended, and the stacked outputs have exactly as many frames as the longest entry.", "quantifier": "all bodies and conditions which work per batch entry, all states, batch sizes, lengths, paddings and max_seq_len", "why_tests_cant": "body and cond are arbitrary functions and the lengths are data dependent", "anchors": ["returnn/frontend/loop.py:while_loop", "returnn/frontend/loop.py:scan", "returnn/frontend/nested.py:mask_nested"]}
{"id": "C58", "title": "HDF files written by SimpleHDFWriter are read back unchanged", "statement": "Sequences written with SimpleHDFWriter.insert_batch, in any batches, to any number of files, each created and later extended any number of times, are exactly the sequences of an HDFDataset over these files: in the order they were written, with their seq tags, their input frames without the batch padding under key 'data', and their extra data (empty if not given for a sequence) under each extra key of the first file.", "quantifier": "every list of files, every history of creating and extending each file, every batching, all lengths, tags and extra keys", "why_tests_cant": "the stored row of lengths depends on the sorted set of all keys seen so far; offsets depend on all sequences before; keys can appear with extra_type or with the first sequence; files may have different keys", "anchors": ["returnn/datasets/hdf.py: SimpleHDFWriter", "HDFDataset.add_file", "_get_data_by_real_seq_idx", "_get_tag_by_real_idx"]}
{"id": "C59", "title": "Dumping a dataset to HDF and reading it back gives the same data", "statement": "HDFDatasetWriter.dump_from_dataset of any dataset, followed by HDFDataset on that file, gives the sequences start_seq..end_seq in order with the same tags; the input key becomes 'data' and each other key keeps its data.", "quantifier": "every dataset (keys, target list, sequences), start_seq, end_seq", "why_tests_cant": "offsets and length columns for all keys and sequences; the order of keys matters", "anchors": ["returnn/datasets/hdf.py: HDFDatasetWriter.dump_from_dataset", "HDFDataset"]}
{"id": "C60", "title": "A CTC FSA accepts exactly the strings which stand for the labels, each once", "statement": "get_ctc_fsa_fast_bw, and the native op get_ctc_fsa_fast_bw with label_loop, make for every sequence of the batch an FSA in which a string of symbols (one per frame) has exactly one path from the start to the end state if merging repeated symbols and then removing blanks gives the target labels, and no path otherwise. With label_loop=False the same holds with only removing blanks (RNA topology). No path uses edges of another sequence.", "quantifier": "every batch, all label sequences of every length without the blank, every string", "why_tests_cant": "any string length and label sequence; a doubled or missing edge changes the sum over alignments silently", "anchors": ["returnn/util/fsa.py: get_ctc_fsa_fast_bw", "returnn/native_op.py: GetCtcFsaFastBwOp"]}
{"id": "C61", "title": "Baum-Welch computes the sums over all paths", "statement": "For FSAs whose sequences do not share states, fast_baum_welch returns, in every frame of a sequence, the score of the sum over all paths of the sequence's length from its start to its end state, and for every label the share of the paths which emit the label in this frame; the result does not depend on the order in which the threads run. Padded frames, and sequences without a path, get score 0 and infinity.", "quantifier": "all FSAs, edge weights, scores, sequence lengths (shorter and longer in one batch) and all orders of the threads", "why_tests_cant": "the number of paths is exponential in the length, and the order of the atomic additions is up to the hardware", "anchors": ["returnn/native_op.py:FastBaumWelchOp", "returnn/tf/native_op.py:fast_baum_welch"]}
{"id": "C62", "title": "The CTC loss is the sum over all alignments", "statement": "ctc_loss of a sequence with labels y and T frames is -log of the sum, over all strings of length T which give y after merging repeated labels (if asked for) and removing blanks, of the product of the probabilities; the soft alignment is the share of the strings with the symbol in the frame.", "quantifier": "all batches of targets, lengths, scores, both label topologies, all orders of the threads", "why_tests_cant": "the number of strings is exponential; tests compare with another implementation on a few inputs", "anchors": ["returnn/tf/native_op.py:ctc_loss", "returnn/native_op.py:FastBaumWelchOp", "returnn/native_op.py:GetCtcFsaFastBwOp"]}
{"id": "C63", "title": "The error signal of the CTC loss is its gradient", "statement": "The error signal which ctc_loss defines for the logits is the derivative of the loss in each logit, both for logits which it normalizes and for given log probabilities; it is zero in padded frames, and the loss of a sequence does not depend on them nor on other sequences.", "quantifier": "all batches, real logits, places in the logits", "why_tests_cant": "finite differences on samples only approximate it in a few points", "anchors": ["returnn/tf/native_op.py:ctc_loss"]}
{"id": "C64", "title": "Viterbi finds a best path, for every interleaving", "statement": "For FSAs whose sequences do not share states, fast_viterbi returns the best score of all paths of the sequence's length from its start to its end state, and the labels of one path with exactly this score, zero after the end; score, alignment and the choice among equally good paths do not depend on how the threads interleave, and no interleaving retries forever. Also with rounded additions, as long as they are monotone.", "quantifier": "all FSAs, weights, scores, lengths, all interleavings of the reads and compare-and-swaps of the threads", "why_tests_cant": "races show up only under rare interleavings, the number of paths is exponential", "anchors": ["returnn/native_op.py:FastViterbiOp", "returnn/tf/native_op.py:fast_viterbi"]}
{"id": "C65", "title": "CTC Viterbi gives a best alignment", "statement": "The alignment of ctc_loss_viterbi, read as a string, gives the target labels after merging repeated labels and removing blanks, its score is the returned score, and no other string which gives the labels is better; the state buffer is large enough for all edges.", "quantifier": "all batches, lengths, scores, both label topologies, all interleavings", "why_tests_cant": "the number of strings is exponential", "anchors": ["returnn/tf/native_op.py:ctc_loss_viterbi", "returnn/tf/native_op.py:fast_viterbi", "returnn/native_op.py:FastViterbiOp", "returnn/native_op.py:GetCtcFsaFastBwOp"]}
{"id": "C66", "title": "Equality of dims is an equivalence consistent with the hash", "statement": "For dims, == is reflexive, symmetric and transitive, equal dims have equal hashes, and is_equal with any options is symmetric, monotone in the options and says exactly what its documentation says; == agrees with is_equal without options", "quantifier": "all heaps of dim objects (any same_as/derived_from links, kinds, sizes, names, flags), all option combinations", "why_tests_cant": "the number of option combinations times link structures is unbounded; violations show up only for specific pairs or triples", "anchors": ["returnn/tensor/_dim_extra.py:_DimMixin.is_equal", "returnn/tensor/_dim_extra.py:_DimMixin._eq_simple", "returnn/tensor/_dim_extra.py:_DimMixin.__hash__", "returnn/tensor/_dim_extra.py:_DimMixin.get_same_base"]}
{"id": "C67", "title": "declare_same_as merges exactly two classes", "statement": "After any sequence of declare_same_as calls, two dims are the same exactly if this follows from the declared pairs; the links never form a cycle, so getting the base always ends; unrelated dims compare as before; whichever of the two dims the call decides to change", "quantifier": "all heaps, all call sequences, all outcomes of the conditions deciding the direction of the link", "why_tests_cant": "depends on the history of calls and on the direction decision in each; a lost or extra merge shows only for particular histories", "anchors": ["returnn/tensor/_dim_extra.py:_DimMixin.declare_same_as"]}
{"id": "C68", "title": "pad, slice, shift and reverse act on the valid frames", "statement": "pad with a value, slice, shift_left/right and reverse_sequence on a padded batch give, for every sequence, the padded, cut, shifted or reversed sequence of its valid frames; padding frames never get into the sequences", "quantifier": "all batches, lengths, contents of the padding frames, amounts, values", "why_tests_cant": "a leak of padding depends on the combination of lengths, amounts and flags, and is invisible when the padding frames happen to hold the pad value", "anchors": ["returnn/frontend/array_.py:pad", "returnn/frontend/array_.py:slice", "returnn/frontend/array_.py:shift_right", "returnn/frontend/array_.py:shift_left", "returnn/frontend/array_.py:reverse_sequence", "returnn/torch/frontend/_backend.py:TorchBackend.pad", "returnn/torch/frontend/_backend.py:TorchBackend.slice"]}
{"id": "C69", "title": "Packing keeps exactly the valid frames, and unpacking restores them", "statement": "pack_padded gives the valid frames of all sequences in the order of the dims, pad_packed of this gives each sequence back, followed by default values; masked_select over the time axis gives for every sequence the selected valid frames in order, with the right lengths", "quantifier": "all batches, lengths, masks, both orders of dims", "why_tests_cant": "position errors depend on the lengths of all the earlier sequences", "anchors": ["returnn/frontend/array_.py:pack_padded", "returnn/frontend/array_.py:pad_packed", "returnn/frontend/array_.py:masked_select", "returnn/torch/util/array_.py:masked_select"]}
{"id": "C70", "title": "window gives the neighbourhood of each frame", "statement": "window with padding \"same\" gives at each valid frame the frames around it inside the sequence, and the pad value where there are none, with or without stride", "quantifier": "all batches, lengths, window sizes, positions, strides, pad values", "why_tests_cant": "the layout trick with a flat reshape is correct only by arithmetic for all sizes", "anchors": ["returnn/frontend/array_.py:window"]}
{"id": "C71", "title": "Reductions ignore the padding", "statement": "max, min, argmax, sum, all, any and mean over the time axis (and over batch and time) of a padded batch are those of the valid frames, whatever is in the padding frames", "quantifier": "all batches, lengths, contents", "why_tests_cant": "depends on mask values against data ranges and on all lengths", "anchors": ["returnn/torch/frontend/_backend.py:TorchBackend.reduce", "returnn/frontend/dims.py:masked_fraction_of_shape", "returnn/frontend/reduce.py:reduce"]}
{"id": "C72", "title": "top_k and top_p_mask select the best valid entries", "statement": "top_k gives the k best valid frames in order, and over several axes the indices into each axis; top_p_mask selects a prefix of the sorted entries with mass at most p (or one more), at their original positions", "quantifier": "all batches, k, p, ties, numbers of axes", "why_tests_cant": "boundary cases of mass equal to p, ties and short sequences", "anchors": ["returnn/torch/frontend/_backend.py:TorchBackend.top_k", "returnn/frontend/array_.py:top_p_mask"]}
{"id": "C73", "title": "scatter reduces exactly the valid frames of each target", "statement": "scatter (sum, max, min) gives at each target position the reduction of the valid frames with this index and the fill value where there is none; scatter_argmax the first frame with the maximum", "quantifier": "all index assignments, lengths, contents", "why_tests_cant": "collisions and padding indices are combinatorial", "anchors": ["returnn/frontend/array_.py:scatter", "returnn/frontend/array_.py:scatter_argmax", "returnn/frontend/array_.py:scatter_logmeanexp", "returnn/torch/frontend/_backend.py:TorchBackend.scatter"]}
{"id": "C74", "title": "Weight decay groups partition the parameters", "statement": "With weight_decay set, the optimizer gets every parameter of the network in exactly one of two groups: without decay if the custom check says so, or if its name ends with bias or it belongs to a blacklisted module and the check does not decide; with decay otherwise. Without weight_decay there is one group with all parameters.", "quantifier": "all module trees with shared modules and shared parameters, all custom checks and blacklists", "why_tests_cant": "shared parameters, names and module trees are unbounded", "anchors": ["returnn/torch/updater.py:Updater._get_optimizer_param_groups"]}
{"id": "C75", "title": "Optimizer state is restored by parameter name", "statement": "Loading a saved optimizer into an optimizer of a possibly different network gives each parameter exactly the state saved under its name, and each group the saved options; it is refused exactly if the trainable parameters are not in the same groups (or the number of groups differs).", "quantifier": "all networks, group assignments and orders of parameters before and after", "why_tests_cant": "needs all pairs of networks and parameter orders", "anchors": ["returnn/torch/updater.py:Updater.load_optimizer", "returnn/torch/updater.py:Updater.save_optimizer"]}
{"id": "C76", "title": "Learning rate of every update", "statement": "Every parameter update uses in all parameter groups the learning rate which the learning rate control and dynamic_learning_rate give for its global train step, epoch and the data seen so far in the epoch, also after a restart with a restored optimizer.", "quantifier": "all epochs, numbers of batches, dynamic learning rate functions, restored states", "why_tests_cant": "the order of updates of the updater state over a whole training", "anchors": ["returnn/torch/engine.py:Engine.train", "returnn/torch/engine.py:Engine.init_train_epoch", "returnn/torch/engine.py:Engine.train_epoch", "returnn/torch/updater.py:Updater.set_current_train_step", "returnn/torch/updater.py:Updater.set_learning_rate"]}
{"id": "C77", "title": "Gradient accumulation", "statement": "With accum_grad_multiple_step k, the gradient of update j of an epoch is the sum of the gradients of exactly the batches j*k to (j+1)*k of this epoch; with a function, an update comes as soon as the number of batches since the last one reaches its value. No batch is in two updates, none of another epoch.", "quantifier": "all numbers of batches, all k and all functions", "why_tests_cant": "all lengths of epochs and all accumulation schedules", "anchors": ["returnn/torch/engine.py:Engine.train_epoch"]}
{"id": "C78", "title": "Causal self attention: steps equal sequences", "statement": "CausalSelfAttention, RotaryPosCausalSelfAttention and RelPosCausalSelfAttention give for every frame the attention over the frames up to it, whether the frames come as one padded batch of sequences, one step at a time from the default initial state, or as sequences of different lengths followed by single steps. Padding and other sequences have no influence, and the state after a call is the one after exactly these frames. A sequence from a non-initial state and a step without state are refused.", "quantifier": "all dims, heads, linear layers, encodings and biases, all batches of sequences, all numbers of steps", "why_tests_cant": "needs every length, batch composition and split between sequence and steps", "anchors": ["returnn/frontend/attention.py:CausalSelfAttention", "returnn/frontend/attention.py:_causal_self_att_step", "returnn/frontend/attention.py:RelPosCausalSelfAttention", "returnn/frontend/attention.py:RotaryPosCausalSelfAttention"]}
{"id": "C79", "title": "Self attention on padded batches, relative positions", "statement": "SelfAttention, RotaryPosSelfAttention and RelPosSelfAttention give for every frame of a sequence the attention over exactly the frames of this sequence. With relative positions, the encoding used for query i and key j is the one of position j - i, in sequences as well as in steps. With rotary positions the energy depends on the positions only by their difference, with the frequencies 10000^(-2i/d). The index into the learned encoding is always inside of the table.", "quantifier": "all dims, all batches, all positions, all real frequencies", "why_tests_cant": "the shift by reshaping must be right for all sizes", "anchors": ["returnn/frontend/attention.py:RelPosSelfAttention", "returnn/frontend/attention.py:_rel_pos_enc_shift", "returnn/frontend/attention.py:_make_indices", "returnn/frontend/attention.py:_apply_rope", "returnn/frontend/attention.py:LearnedRelativePositionalEncoding", "returnn/frontend/attention.py:sinusoidal_positional_encoding"]}
{"id": "C80", "title": "Transformer decoder: steps equal sequences", "statement": "The logits of TransformerDecoder for a label position depend only on the labels up to it and on the encoder frames of the same sequence, and are the same for a whole sequence, step by step decoding, and a prompt of different lengths in the batch followed by steps; output_only_last_frame gives the logits at the last label of each sequence.", "quantifier": "all numbers of layers, all layers with or without cross attention, all batches, prompts and numbers of steps", "why_tests_cant": "the state of all layers and the position must be right in all mixtures of calls", "anchors": ["returnn/frontend/decoder/transformer.py:TransformerDecoder", "returnn/frontend/decoder/transformer.py:TransformerDecoderLayer", "returnn/frontend/attention.py:CrossAttention"]}
{"id": "C81", "title": "Fast literal conversion gives the value of the literal", "statement": "literal_eval on the text of a Python literal built from None, integers, floats without exponent, strings in single or double quotes with the usual escapes, lists, sets and dicts (any nesting, any white space, trailing commas) gives exactly the Python value, if and only if every integer fits into signed 32 bits, as long as the pickle fits into the text length plus 1000 bytes; literals with at most 142 items always fit.", "quantifier": "all literals of the supported kind (any nesting depth, any length), all placements of white space, every strtod", "why_tests_cant": "the texts are unboundedly many and nested; a test covers some literals, not all combinations of escapes, nesting and white space", "anchors": ["returnn/util/py-to-pickle.cpp: Parser", "utf8_encode", "returnn/util/literal_py_to_pickle.py: literal_eval", "py_to_pickle"]}
{"id": "C82", "title": "Fast literal conversion is safe on every text", "statement": "For every byte string, the converter ends; it never writes more bytes than the output buffer holds; if it reports success then the output is a well formed pickle (loading it gives an object or fails because of the values: invalid UTF-8 or unhashable key); if the buffer is too small it reports an error.", "quantifier": "all byte strings (less than 2^62 bytes), all buffer sizes, every strtod", "why_tests_cant": "memory safety and termination must hold for arbitrary, also malformed, input; tests only sample it", "anchors": ["returnn/util/py-to-pickle.cpp: Parser", "MemWriter", "returnn/util/literal_py_to_pickle.py: py_to_pickle"]}
{"id": "C83", "title": "Element-wise operations broadcast by named dims", "statement": "For two tensors (or a tensor and a number) a binary operation of the frontend ('a + b', rf.combine, rf.compare) gives a tensor whose dims are the union of the dims of both, each dim once, and whose value at every position of the named dims is the operation applied to the values of both operands at that position, no matter in which order the operands list their dims, and with or without the native module. If dim_order is given, the dims of the result follow it. With equal dims (square matrices) every axis of an operand goes to its own axis of the result with an equal dim. copy_compatible_to_dims gives the same values with size-1 axes for missing dims, or raises.", "quantifier": "all shapes, all orders of dims, all subsets of shared dims, all operations, all dim_order, all index positions", "why_tests_cant": "Tests check a few shapes and orders; the code has six fast paths, permutations, skipped permutations and reshapes, and each pair of dim lists takes another path.", "anchors": ["returnn/frontend/_native/tensor_ops.cpp compareOrCombine", "returnn/frontend/_native/tensor_ops.cpp _getPermutationSupersetToSubset", "returnn/frontend/_native/tensor_ops.cpp _permuteAndExtend", "returnn/frontend/_utils.py bin_op_out_template", "returnn/tensor/_tensor_extra.py get_out_permutation_to_dims", "returnn/tensor/_tensor_extra.py copy_compatible_to_dims_raw"]}
{"id": "C84", "title": "allow_broadcast_all_sources is enforced", "statement": "A binary operation on two tensors of which neither has all the dims of the result raises a ValueError unless allow_broadcast_all_sources=True is given; otherwise it does not raise.", "quantifier": "all pairs of tensors, all dim orders", "why_tests_cant": "Tests try single pairs; whether the check is hit depends on the path which the dims take in the native code.", "anchors": ["returnn/frontend/_native/tensor_ops.cpp compareOrCombine", "returnn/frontend/_native/tensor_ops.cpp _isTupleSubsetReorderList", "returnn/frontend/_utils.py bin_op_out_template"]}
{"id": "C85", "title": "Shortcuts for numbers do not change the value", "statement": "rf.combine(a, kind, b) with one operand a number has the value of the operation for each element, also where a shortcut returns one of the operands without calling the backend.", "quantifier": "all operations, all numbers, all element values", "why_tests_cant": "The shortcuts are taken for special numbers only, and only if the native module is not available, which is not the case in the usual test setup.", "anchors": ["returnn/frontend/math_.py combine"]}
{"id": "C86", "title": "Matmul reduces the named dims", "statement": "rf.matmul(a, b, reduce=dims) has the common dims, the other dims of a, and the other dims of b as dims, and at each position its value is the sum, over all positions of the reduced dims, of the products of the values of a and b there; independent of the order of the axes in a and b and of which torch function is used. For a square weight matrix the axis with the higher match priority is reduced.", "quantifier": "all tensors and all orders of dims, any number of common, reduced and other dims, all sizes including 0 and 1", "why_tests_cant": "The code has four paths (linear, mm, bmm, permute and reshape), chosen from the number and order of axes; tests cover a few orders only.", "anchors": ["returnn/torch/frontend/_backend.py TorchBackend.matmul", "returnn/frontend/matmul.py matmul"]}
{"id": "C87", "title": "Gather picks by named dims", "statement": "rf.gather(source, indices=indices, axis=axis) has the dims of the indices that are not in the source in place of the axis; at each position its value is that of source at the same position of the other dims and at the index there on the axis. With clip_to_valid the index is first limited to the valid frames of that sequence. An int index removes the axis, and counts from the end if negative.", "quantifier": "all tensors, all orders of dims, any number of common and new dims, all index values", "why_tests_cant": "Six different torch functions are used depending on the number of dims and the position of the axis; which of them agree on which inputs is only seen by considering all orders of dims.", "anchors": ["returnn/torch/frontend/_backend.py TorchBackend.gather", "returnn/frontend/array_.py gather"]}
{"id": "C88", "title": "Forwarding delivers every sequence once", "statement": "Engine.forward_with_callback calls the callback once for each sequence of the dataset, in the order of the dataset, with the data of this sequence and without padding, however the sequences are grouped into batches; and if a step runs out of memory and forward_auto_split_batch_on_oom is set, also then.", "quantifier": "all datasets, all groupings into batches, all sequence lengths, all patterns of steps which run out of memory", "why_tests_cant": "The outcome depends on the lengths in each batch, on the grouping, and on which steps fail; out-of-memory errors are not reproducible in tests.", "anchors": ["returnn/torch/engine.py Engine.forward_with_callback", "returnn/torch/data/pipeline.py collate_batch", "returnn/torch/data/queued_data_iter.py QueuedDataIter", "returnn/torch/data/extern_data.py raw_dict_to_extern_data"]}
{"id": "C89", "title": "Splitting a batch keeps all sequences", "statement": "Splitting a raw batch into given sizes (or a number of parts) gives batches which stand for consecutive parts of the sequences, each cut to its longest sequence; their sizes sum up to the batch size; put back into the iterator they come next, in order, before everything else.", "quantifier": "all batches, all sizes, all numbers of parts, all states of the iterator", "why_tests_cant": "Holds for all batch sizes and numbers of parts, including those which do not divide, which no finite set of examples covers.", "anchors": ["returnn/torch/data/extern_data.py raw_dict_split_batch", "returnn/torch/data/extern_data.py _make_split_seq_from_num_splits", "returnn/torch/data/queued_data_iter.py QueuedDataIter"]}
{"id": "C90", "title": "Gradient checkpointing recomputes the same values", "statement": "When the backward pass needs a tensor created inside gradient_checkpoint_scope, the operations of the scope are run again from the recorded graph; every recomputed tensor has the value it had in the first run (in-place operations, views and random operations included), as long as the tensors from outside still have their values, and afterwards the random generators are as if nothing had been recomputed.", "quantifier": "every sequence of operations in the scope (new tensors, views, in-place changes, random draws on any device), every later state of the process and generators", "why_tests_cant": "operations, aliasing patterns and generator states are unbounded combinations; tests check a few networks", "anchors": ["returnn/torch/util/gradient_checkpoint.py:gradient_checkpoint_scope", "returnn/torch/util/gradient_checkpoint.py:_RecordGraph", "returnn/torch/util/gradient_checkpoint.py:_Graph.maybe_recompute"]}
{"id": "C91", "title": "Checkpoint scopes leave other saved-tensor hooks intact", "statement": "A program with properly nested saved_tensors_hooks blocks and checkpoint scopes never gets an exception from entering or leaving them; a block which is entered has its hooks on top; hooks of a block which was left are never used again; once no tensor of a checkpoint scope is alive, leaving a scope restores the hooks of the innermost open block, and with no block open PyTorch is as before.", "quantifier": "every sequence of entering and leaving blocks and checkpoint scopes, and every point in time and thread at which the tensors of the checkpoint scopes go away", "why_tests_cant": "the order of garbage collection relative to the scopes is not under control of a test", "anchors": ["returnn/torch/util/gradient_checkpoint.py:gradient_checkpoint_scope.__exit__", "returnn/torch/util/gradient_checkpoint.py:_custom_saved_tensors_hooks_enter", "returnn/torch/util/gradient_checkpoint.py:_custom_saved_tensors_hooks_exit"]}
{"id": "C92", "title": "The training process manager ends with the right exit code", "statement": "With automatic restarts enabled, the training is started only while its final epoch is missing, and started again only after a run which stored a newer epoch; the number of starts is at most the number of missing epochs; the exit code is that of the last run (0 if nothing was to do); the subprocess never starts a manager of its own; and if every run makes progress, the final epoch is reached.", "quantifier": "every behaviour of the subprocess: which models it stores, when it crashes and with what code", "why_tests_cant": "crash points and restart histories are unbounded", "anchors": ["returnn/util/train_proc_manager.py:main_proc_manager", "returnn/util/train_proc_manager.py:maybe_start_train_proc_manager"]}
{"id": "C93", "title": "PostprocessingDataset gives the mapped sequences", "statement": "With map_seq the dataset has exactly the sequences of the wrapped dataset in their order, each with what the function returns (tag and complete_frac kept if the function drops them); with map_seq_stream sequence i is the i-th one the function yields; complete_frac lies in [0,1] and never decreases; a given seq_list is followed or an error raised; if the number of sequences is declared to be preserved and fewer are yielded there is an error.", "quantifier": "every wrapped dataset, every function (also with randomness), every increasing pattern of sequence accesses", "why_tests_cant": "user functions and access patterns are arbitrary", "anchors": ["returnn/datasets/postprocessing.py:PostprocessingDataset._iterate_dataset", "returnn/datasets/postprocessing.py:PostprocessingDataset._build_mapping_iter", "returnn/datasets/postprocessing.py:PostprocessingDataset._collect_single_seq"]}
{"id": "C94", "title": "Distributed training ends on all ranks", "statement": "In distributed training the ranks never wait for each other forever: whatever the order in which the ranks run, all epochs and evaluations come to their end on all ranks. In every epoch all ranks do the same number of steps, each on its own first batches, as many as the rank with the fewest batches has. Afterwards the results of the epochs, and so the learning rates, are the same on all ranks, and only rank 0 wrote model files.", "quantifier": "all numbers of ranks, batches of each rank, numbers of epochs, eval datasets, accumulation settings, reduction types, and all interleavings of the ranks", "why_tests_cant": "Deadlocks depend on the interleaving of processes and on the sizes of the data of each rank; a test runs one of them, usually with one process.", "anchors": ["returnn/torch/distributed.py:DistributedContext", "returnn/torch/distributed.py:_sync_params_avg", "returnn/torch/engine.py:Engine.train_epoch", "returnn/torch/engine.py:Engine.eval_model", "returnn/torch/engine.py:Engine._check_missing_eval"]}
{"id": "C95", "title": "Ranks of distributed training agree", "statement": "With reduce_type grad (DDP) the parameters, the optimizer state and the results of the epochs on all ranks are after each step those of one process which trains with the mean of the gradients of the ranks. With reduce_type param each rank trains on its own, and the parameters are the mean over the ranks after each param_sync_step steps of an epoch.", "quantifier": "all numbers of ranks, losses, gradients, optimizers, batches, accumulation settings, epochs, and all interleavings of the ranks", "why_tests_cant": "The claim relates two whole trainings for arbitrary models and data; tests compare single runs with tolerances.", "anchors": ["returnn/torch/distributed.py:DistributedContext", "returnn/torch/distributed.py:_sync_params_avg", "returnn/torch/engine.py:Engine.train_epoch", "returnn/torch/engine.py:Engine.eval_model", "returnn/torch/engine.py:Engine._check_missing_eval"]}
{"id": "C96", "title": "Concatenated sequences", "statement": "A dataset which concatenates sequences of another one gives for each listed sequence and each data key the data of its sub sequences one after the other, in the order in its tag, for every order of the epoch; the in-between options change only sub sequences which are not the last: the given postfix label is removed, the last frame is repeated up to a multiple, or the data is brought to the multiple of the length of its target. The other dataset is read once from its first to its last sequence, and data which it returns under another tag is never used. After downsampling by the configured factor the concatenation has as many frames as its sub sequences together.", "quantifier": "all corpora, tags and delimiters, orders of the epoch, data keys, sequence lengths and option values", "why_tests_cant": "The index bookkeeping and the alignment of lengths must hold for all lists of tags and all lengths; tests use one corpus.", "anchors": ["returnn/datasets/meta.py:ConcatSeqsDataset"]}
{"id": "C97", "title": "Convolution and pooling of a padded batch treat every sequence as if alone", "statement": "rf.conv and rf.pool on a batch of sequences of different lengths give, within the output length of every sequence, exactly what convolution or pooling of this sequence alone gives (the same padding positions, window positions and values), whatever is stored in the padded frames and however long the other sequences are; and the output lengths are the number of windows of the sequence alone.", "quantifier": "all batches, lengths, filter sizes, strides, dilations, paddings, weights", "why_tests_cant": "The bug classes are boundary effects which only occur for certain combinations of length, stride, filter parity, dilation and of the lengths of other sequences in the batch.", "anchors": ["returnn/frontend/conv.py:conv", "returnn/frontend/conv.py:pool", "returnn/frontend/conv.py:make_conv_out_spatial_dims", "returnn/frontend/conv.py:_consistent_same_padding", "returnn/torch/frontend/_backend.py:TorchBackend.conv", "returnn/torch/frontend/_backend.py:TorchBackend.pool"]}
{"id": "C98", "title": "Loading a model gives every parameter its value, or an error", "statement": "When a model is loaded from a checkpoint and preload_from_files, every parameter ends up with the value of the used entry with the smallest key which has it, otherwise of the checkpoint, otherwise its initial value; if loading succeeds, no parameter which had to be loaded was silently left out; loading succeeds whenever all files are readable with the right shapes and all critical parameters are in one of them; and a checkpoint written in training can be loaded again with the same config, giving the same values and the same set of frozen parameters.", "quantifier": "all models, checkpoints, preload entries with prefixes, ignore lists, renamings, tasks", "why_tests_cant": "The result depends on the combination of several files, their order, prefixes and missing keys; wrong combinations leave parameters random without error.", "anchors": ["returnn/torch/engine.py:Engine._load_model", "returnn/torch/engine.py:Engine._save_model", "returnn/torch/util/module.py:convert_parameters_to_buffers"]}
{"id": "C99", "title": "Every step works with the sizes of its own batch", "statement": "With the PyTorch backend, after any sequence of steps, a step starts with its batch: the dynamic dims of the extern data get the sequence lengths of that batch, all entries must be there with the right static axes, and every dim which user code derives in that step from them (by +, -, *, //, ceildiv with numbers, static dims or other dims of the step), whether from a cache or new, has for each sequence of the batch the length which the operation gives for the lengths of its operands. Lengths of earlier batches are never seen.", "quantifier": "all histories of steps and dim operations, all extern data and batches, all sequences of operations within a step", "why_tests_cant": "Caches and stale sizes show only for particular sequences of batches and operations; tests run a step once.", "anchors": ["returnn/torch/data/extern_data.py:raw_dict_to_extern_data", "returnn/tensor/_dim_extra.py:reset_eager", "returnn/tensor/_dim_extra.py:reset_raw", "returnn/tensor/_dim_extra.py:complete_dyn_size", "returnn/tensor/_dim_extra.py:_CacheDimMath"]}
{"id": "C100", "title": "Parameters of a model are found exactly once, by name", "statement": "For every module structure, also with shared modules and cycles, named_modules and named_parameters give each module and each parameter of the model exactly once, with distinct names, and get_deep with that name gives it back. apply visits all modules, children first, once each if nothing is shared. The converted PyTorch module has in its state dict exactly the names which lead to a parameter of the model, with that parameter; its buffers are exactly the auxiliary parameters (if wanted), its parameters are each other parameter once; the names are the same if nothing is shared. set_deep sets what get_deep then gives.", "quantifier": "all graphs of modules (any depth, sharing, cycles), all attribute names, all choices of auxiliary parameters", "why_tests_cant": "Sharing and cycles are combinations of structure which tests do not enumerate; a missed or doubled parameter is silently not trained or not stored.", "anchors": ["returnn/frontend/module.py:named_modules", "returnn/frontend/module.py:named_parameters", "returnn/frontend/module.py:get_deep", "returnn/frontend/module.py:set_deep", "returnn/frontend/module.py:apply", "returnn/torch/frontend/bridge.py:RFModuleAsPTModule"]}
{"id": "C101", "title": "Normalization uses the statistics of the real frames", "statement": "Batch normalization, rf.moments, rf.normalize, layer, RMS and group normalization compute what is documented: with masking, mean and variance are over exactly the frames of the sequences; the running statistics are the documented moving average over the batches in training; outside of training each sequence gets the result which it gets alone; padding content never matters.", "quantifier": "all batches of any lengths and contents, any values of momentum/eps/gamma/beta, any history of calls in and out of training, any position of the feature axis in any shape", "why_tests_cant": "tests look at a few shapes; the claim is about every batch, layout and history of updates", "anchors": ["returnn/frontend/normalization.py:moments", "returnn/frontend/normalization.py:BatchNorm", "returnn/frontend/normalization.py:LayerNorm", "returnn/frontend/normalization.py:GroupNorm", "returnn/frontend/normalization.py:RMSNorm", "returnn/torch/frontend/_backend.py:batch_norm"]}
{"id": "C102", "title": "Label smoothing keeps distributions", "statement": "Smoothing turns a distribution into a distribution where a sure label gets 1-smoothing and the others share the rest; sparse labels are smoothed like their one-hot vectors; and label_smoothed_log_prob_gradient turns the gradient -w*p of a frame into -w*smoothed(p), for every frame weight, leaving padding without gradient, excluded labels unchanged and the sum over the other labels as it was.", "quantifier": "all numbers of labels, distributions, smoothing factors, frame weights, excluded labels, axis orders", "why_tests_cant": "tests check some vectors; the claim is for every distribution and layout", "anchors": ["returnn/frontend/label_smoothing.py:label_smoothing", "returnn/frontend/label_smoothing.py:smooth_one_hot", "returnn/frontend/label_smoothing.py:label_smoothed_log_prob_gradient", "returnn/torch/util/scaled_gradient.py:_ScaledGradientExt"]}
{"id": "C103", "title": "A recurrent layer treats each sequence as if it was alone, and steps are the same as sequences", "statement": "rf.LSTM over a padded batch gives for each entry the outputs of the loop over its own frames (then zeros) and the state after its own last frame, whatever is in the padding and however sequences of the same length are sorted. Calling it step by step, or chunk by chunk with the state handed over, gives the same. The cell computes the equations of the LSTM with the stacked weights. rf.ZoneoutLSTM is the same with zoneout: outside of training the mean of new and old value, in training exactly one of them, for any order of the gates; without zoneout it equals rf.LSTM.", "quantifier": "all batches, lengths, states, weights, orders of gates, noise, cuts into chunks", "why_tests_cant": "The sorting of the packed sequences and the cut into chunks have unboundedly many cases; tests use one batch.", "anchors": ["returnn/frontend/rec.py:LSTM", "returnn/frontend/rec.py:ZoneoutLSTM", "returnn/frontend/rec.py:_zoneout", "returnn/torch/frontend/_backend.py:lstm"]}
{"id": "C104", "title": "The command line beats the config file, whatever the config file does", "statement": "After init_config, a key which is given as ++key value on the command line has this value, whatever defaults, updates and config files have for it; of several the last one. Extra updates beat config files, later config files beat earlier ones, and these beat the defaults; keys of one source do not change other keys.", "quantifier": "all config files (any effect of a Python file), command lines, defaults, updates, nesting of includes", "why_tests_cant": "Config files are programs; the sources are applied in several passes which depend on the types from before.", "anchors": ["returnn/__main__.py:init_config", "returnn/config.py:Config.parse_cmd_args", "returnn/config.py:Config.add_line", "returnn/config.py:Config.load_file"]}
{"id": "C105", "title": "A config value reads the same whether it was written in Python or as text", "statement": "Config.int, bool, is_true, float, value, list and int_list give the same for a number, bool or list of numbers in a Python config and for its text on the command line; a missing key gives the default. The copy of the config in another process, and the global config after a context, read the same as before.", "quantifier": "all keys, values, lengths of lists, indices, bodies of the context", "why_tests_cant": "Each accessor has its own cases for typed and untyped values.", "anchors": ["returnn/config.py:Config.value", "returnn/config.py:Config.int", "returnn/config.py:Config.bool", "returnn/config.py:Config.float", "returnn/config.py:Config.list", "returnn/config.py:Config.int_list", "returnn/config.py:Config.__getstate__", "returnn/config.py:global_config_ctx"]}
{"id": "C106", "title": "SpecAugment masks whole blocks and nothing else", "statement": "specaugment in training replaces exactly the entries of a frame which lies in one of the chosen blocks of frames, or of a feature which lies in one of the chosen blocks of features, by the mask value; all other entries are unchanged, and padding frames are never counted as masked frames. The number of blocks for each sequence lies between the bounds of the current phase (given by the step), the blocks start at different positions and have 1 to max_consecutive_* positions, so at most num * max positions and at least min(num, length) positions are masked. Outside of training and before the first of the steps nothing changes.", "quantifier": "all batches, lengths, options, steps, random draws and all ways topk may break ties", "why_tests_cant": "Random draws and lengths are sampled in tests; a mask past the end, a mask on padding or a wrong count for some draw is not noticed.", "anchors": ["returnn/frontend/audio/specaugment.py: specaugment", "returnn/frontend/audio/specaugment.py: random_mask", "returnn/frontend/audio/specaugment.py: mask"]}
{"id": "C107", "title": "Dropout drops or scales and keeps the mean", "statement": "dropout in training multiplies each value with 0 or 1/(1-drop_prob), with one decision for all positions that only differ in the broadcast axes; the random numbers for which a value is dropped are exactly those below drop_prob, so that the mean over evenly spread random numbers is the input. Outside of training (without on_forward) and for drop_prob 0 the input is returned; a drop_prob outside of [0, 1) is an error.", "quantifier": "all tensors, probabilities, noise values, axes", "why_tests_cant": "A statistical test does not tell an off-by-one at the boundary or a slightly wrong scale from chance.", "anchors": ["returnn/frontend/dropout.py: dropout", "returnn/frontend/dropout.py: _dropout"]}
{"id": "C108", "title": "Merging, splitting and reshaping of dims keeps every value at the position of its rank", "statement": "merge_dims moves the value at positions (i1, ..., in) of the merged dims to the position of the merged dim which is their rank (last dim fastest), keeps the order of the other dims and puts the new dim where the first merged dim was; split_dims is the reverse operation; reshape keeps the rank within the reshaped dims. The ranks of different positions differ and all positions of the merged dim are used. A merged size that does not fit is an error. The sizes of the merged dim lose no position which is within the lengths of all merged dims.", "quantifier": "all tensors with distinct dims, all selections and orders of the dims to merge, all sizes and lengths", "why_tests_cant": "Tests use a few shapes with dims already next to each other; other orders need a transposition that a wrong axis order in one of the lists would break silently when sizes agree.", "anchors": ["returnn/torch/frontend/_backend.py: TorchBackend.merge_dims", "returnn/torch/frontend/_backend.py: TorchBackend.split_dims", "returnn/torch/frontend/_backend.py: TorchBackend.reshape", "returnn/frontend/array_.py: merge_dims"]}
{"id": "C109", "title": "Split, concat, stack, expand and squeeze put every value at the right place", "statement": "split gives parts whose values are those of the source at the position moved by the sizes of the parts before, and raises if the sizes do not add up. concat puts the value of each source at its position moved by the sizes of the sources before, whatever the order of the dims of the sources, and with allow_broadcast repeats a source over the dims it lacks; without it, sources with other dims are an error. concat of the parts of split is the source. stack puts source k at position k of the new dim, whatever the order of its dims, and refuses sources with more or fewer dims. expand_dim repeats the values over the new dim, squeeze removes a dim of size 1, replace_dim keeps the values.", "quantifier": "all tensors with distinct dims, all numbers of sources, sizes, dim orders", "why_tests_cant": "The result of a wrong offset or a wrong transposition has the right shape; only the values of some positions are wrong, for some orders of dims.", "anchors": ["returnn/torch/frontend/_backend.py: TorchBackend.split", "returnn/torch/frontend/_backend.py: TorchBackend.concat", "returnn/torch/frontend/_backend.py: TorchBackend.stack", "returnn/torch/frontend/_backend.py: TorchBackend.expand_dim", "returnn/torch/frontend/_backend.py: TorchBackend.squeeze", "returnn/frontend/array_.py: concat", "returnn/frontend/_backend.py: Backend.replace_dim"]}
{"id": "C110", "title": "Sums, counts and means respect lengths", "statement": "Summing over dims with lengths sums exactly the entries within the lengths; num_elements_of_shape is the number of such entries, in whatever order the dims are given and however the sizes depend on each other; the mean is the sum divided by that number. What is in the padding never matters.", "quantifier": "All tensors, dims, dependencies of sizes on dims, and positions in the remaining dims", "why_tests_cant": "Shapes, orders of dims and ways in which sizes depend on dims are unlimited", "anchors": ["returnn/torch/frontend/_backend.py:reduce", "returnn/frontend/dims.py:num_elements_of_shape", "returnn/frontend/dims.py:masked_fraction_of_shape"]}
{"id": "C111", "title": "Scores of an epoch are means over all frames", "statement": "The total loss is the scaled sum of the losses which are not only errors, normalized where wanted. The reported score of an epoch is the sum over all frames (or sequences) of all batches divided by their number: it does not depend on how the data is cut into batches, on the order, or on the padding.", "quantifier": "All sets of losses, all batchings and orders of all data", "why_tests_cant": "There are unlimited ways to batch the same data", "anchors": ["returnn/frontend/run_ctx.py:Loss", "returnn/frontend/run_ctx.py:total_loss", "returnn/torch/engine.py:train_epoch", "returnn/torch/engine.py:eval_model"]}
{"id": "C112", "title": "Reading while another thread adds sequences", "statement": "With sequences added by one thread and read by another through the bounded buffer of SprintDatasetBase, every interleaving gives the reader exactly the added sequences under their numbers, is_less_than_num_seqs tells the truth, no thread waits forever, every call ends, and the buffer stays bounded. A reader of a new epoch never sees the sequences of the epoch before.", "quantifier": "All lists of sequences, all readers which go forward (their calls may depend on what they got), all interleavings of the two threads", "why_tests_cant": "Interleavings of threads and lost wakeups cannot be enumerated by tests", "anchors": ["returnn/datasets/sprint.py:SprintDatasetBase", "returnn/sprint/interface.py:getSegmentList", "returnn/datasets/sprint.py:ExternSprintDataset"]}
{"id": "C113", "title": "HDF sequence cache gives the data of the epoch", "statement": "HDFDataset with the cache enabled: once load_seqs(x, y) has returned, get_data for every sequence x <= i < y gives exactly the input and target stored for the sequence which the order of the current epoch names at position i, while the loading thread may still be running; the loading threads do not fail and come to an end, and load_seqs returns.", "quantifier": "every corpus, split over files, cache limits, sequence of epochs with arbitrary permutations, sequence of load_seqs calls, and interleaving of reader and loading threads", "why_tests_cant": "tests run one interleaving on a small corpus which fits in the cache; partial caches with deletions, re-allocation and reordering depend on lengths, limits and history", "anchors": ["returnn/datasets/cached.py:CachedDataset.init_seq_order", "returnn/datasets/cached.py:CachedDataset.load_seqs", "returnn/datasets/cached.py:CachedDataset.is_cached", "returnn/datasets/cached.py:CachedDataset.get_input_data", "returnn/datasets/cached.py:CachedDataset.get_targets", "returnn/datasets/hdf.py:HDFDataset._load_seqs", "returnn/datasets/basic.py:Dataset.load_seqs"]}
{"id": "C114", "title": "HDF sequence cache keeps its memory limits", "statement": "The sequences cached at the start are the longest prefix of the epoch within cache_byte_size_limit_at_start; allocating (freeing) a range of sequences gives (takes) memory to exactly the sequences of this range and leaves the data of all others as they are; the frames held beyond the start cache stay within the budget of free frames.", "quantifier": "every list of sequence lengths, limit, set of allocated intervals, range, and history of load_seqs calls", "why_tests_cant": "tests use a few intervals; the interval list is cut and merged in many ways, and the account of free frames is a matter of the whole history", "anchors": ["returnn/datasets/cached.py:CachedDataset._init_start_cache", "returnn/datasets/cached.py:CachedDataset._modify_alloc_intervals", "returnn/datasets/cached.py:CachedDataset.insert_alloc_interval", "returnn/datasets/cached.py:CachedDataset.remove_alloc_interval", "returnn/datasets/cached.py:CachedDataset.delete", "returnn/datasets/cached.py:CachedDataset._load_seqs_with_cache"]}
{"id": "C115", "title": "Scatter reduces, per out index, exactly the valid frames which point to it", "statement": "rf.scatter gives for every out index the sum, maximum, minimum, log-sum-exp, log-mean-exp, or the first position of the maximum, of the values of exactly those valid frames whose index is this out index, whatever is in the padding and wherever the padding points to, and the fill value without any such frame. It refuses indices out of range, and undoes a gather with a permutation. top_k_mask keeps exactly k positions, none smaller than one which is not kept. top_p_mask keeps the largest probabilities: with one_more=False a maximal set with sum up to p, with one_more=True a minimal set with a sum above p.", "quantifier": "all sizes, indices, values, valid lengths, and all orders of equal values", "why_tests_cant": "tests use a few indices and mostly no padding which points to a used out index; the claim is about every index pattern and every content of the padding", "anchors": ["returnn/frontend/array_.py: scatter", "returnn/frontend/array_.py: scatter_argmax", "returnn/frontend/array_.py: scatter_logsumexp", "returnn/frontend/array_.py: scatter_logmeanexp", "returnn/frontend/array_.py: top_k_mask", "returnn/frontend/array_.py: top_p_mask", "returnn/torch/frontend/_backend.py: TorchBackend.scatter"]}
{"id": "C116", "title": "Sprint archives give back what was added", "statement": "Features, times and attributes which are added to a new Sprint archive are read back exactly after finalize, under every name that was added and no other; for a name added twice the last one counts. An archive that was not finalized is refused, and frames without times are refused when adding.", "quantifier": "every sequence of adds with any names, features, times and attribute texts", "why_tests_cant": "tests write a few short entries; positions, sizes and names of any number of entries interact through the table at the end of the file", "anchors": ["returnn/sprint/cache.py:FileArchive", "returnn/sprint/cache.py:FileArchive.add_feature_cache", "returnn/sprint/cache.py:FileArchive.finalize", "returnn/sprint/cache.py:FileArchive.read"]}
{"id": "C117", "title": "Alignments, states and names in Sprint archives are decoded right", "statement": "Packed numbers, run-length coded and weighted alignments are read as the items at their times; an alignment item splits into its allophone and state; an entry can be given by its unique short name; in a bundle the full name finds the entry; the allophones have the same numbers in an archive and in a labeling; the state tying table has the label of each allophone and state.", "quantifier": "every number, alignment, allophone table, state tying and collection of archives", "why_tests_cant": "the encodings have special cases (runs, time jumps, long numbers, many states) which only show up for particular alignments", "anchors": ["returnn/sprint/cache.py:FileArchive._raw_read", "returnn/sprint/cache.py:FileArchive.read_packed_U32", "returnn/sprint/cache.py:FileArchive.get_state", "returnn/sprint/cache.py:FileArchiveBundle", "returnn/sprint/cache.py:AllophoneLabeling"]}
{"id": "C118", "title": "Lines of a text corpus", "statement": "For every list of plain, gzipped and Bliss corpus files, sequence number i of the language model dataset has exactly the i-th stripped line of all files together, in file order; no line is lost, none appears twice, and with skip_empty_lines exactly the blank lines are left out.", "quantifier": "all lists of corpus files, all contents, all line numbers", "why_tests_cant": "Where lines end, empty lines, missing final newlines and the concatenation of files have unboundedly many combinations; tests use one small file.", "anchors": ["returnn/datasets/lm.py:LmDataset._lazy_init", "returnn/datasets/lm.py:LmDataset._iter_txt"]}
{"id": "C119", "title": "Symbols of a line and collected sequences", "statement": "For every line: character symbols lose nothing, bracketed specials are one symbol, words are the whitespace-separated words; unknown symbols are replaced by the unknown symbol and the result does not depend on which sequences were read before; runs of spaces become one space; and the sequences of an epoch are exactly the valid lines of the order, with their line numbers, and their number is the number told.", "quantifier": "all texts, all symbol maps and replacement maps, all histories of read sequences, all epoch orders and sets of invalid lines", "why_tests_cant": "The replacement map is changed while reading, so the result could depend on any history; tests read one epoch of one file.", "anchors": ["returnn/datasets/lm.py:LmDataset._collect_single_seq", "returnn/util/basic.py:parse_orthography_into_symbols", "returnn/util/basic.py:parse_orthography"]}
{"id": "C120", "title": "Allophone states and their numbers", "statement": "For every allophone state with phones of the inventory: it has a number below the number of classes, different allophone states have different numbers, and decoding the number gives the allophone state back; the context of each phone in a sequence consists of its nearest neighbours; a generated sequence has all states of all phones in order; and a state tying maps every allophone state to one class, the classes being numbered without gaps.", "quantifier": "all phone inventories, all context lengths, numbers of states and boundaries, all phone sequences, all repetitions, all state tying files", "why_tests_cant": "Numbers of allophone states are positional codes over an arbitrary inventory; tests check one or two of them, and only one context length.", "anchors": ["returnn/datasets/lm.py:AllophoneState.index", "returnn/datasets/lm.py:AllophoneState.from_index", "returnn/datasets/lm.py:AllophoneState.from_classic_index", "returnn/datasets/lm.py:PhoneSeqGenerator._allos_set_context", "returnn/datasets/lm.py:PhoneSeqGenerator.generate_seq", "returnn/datasets/lm.py:StateTying"]}
{"id": "C121", "title": "Translation corpora: loading, waiting, order and vocabularies", "statement": "The reading thread of a translation dataset always comes to an end: with all lines of both files loaded when the files have the same number of lines and every line can be processed, and with an error otherwise. Asking for a line gives exactly this line of the asked file at every moment of the loading, and it comes after some time; a line behind the end is an error. A collected sequence has the tag of the line its order says, and the data of all files from this same line. A list of tags gives the lines of these tags as order. The labels of a vocabulary exist exactly when its ids have no gaps, and each label has its id. Words become their ids, unknown ones the id of the unknown label, or an error without one.", "quantifier": "all files, chunk sizes of reading, moments of the loading, orders, vocabularies, words", "why_tests_cant": "The interleaving of the loading thread with the requests and the sizes of the chunks can not be enumerated by tests.", "anchors": ["returnn/datasets/lm.py: TranslationDataset"]}
{"id": "C122", "title": "Hooks on methods and parametrized parameters", "statement": "After any history of registering and removing hooks, calling a method of an object gives the original result changed by exactly the hooks which are active on this method of this object, in the order of registering, with prepended hooks first; registering and removing never fails and other objects are not affected; this holds for calling the object itself as well. Parametrizing a parameter: reading gives the transformed parameter, setting it changes what is below, all other parameters are not affected, removing it gives back the same parameter with its value, or for a replaced parameter a new one with the value last read. A module counts as parametrized exactly when it has a parametrization.", "quantifier": "all histories of registering and removing, all hooks, objects and methods, all parametrizations", "why_tests_cant": "Histories and combinations of objects, methods, hooks and parametrizations can not be enumerated by tests.", "anchors": ["returnn/frontend/hooks.py: setup_post_hook_on_method", "MethodWithHooks", "RemovableHandle", "returnn/frontend/parametrize.py: register_parametrization", "remove_parametrization", "is_parametrized"]}
{"id": "C123", "title": "Zip files with audio and text as a dataset", "statement": "A dataset of zip files with audio and text documents (OggZipDataset) has the entries of all documents, in order, whose tags are in the segment list (or a fixed subset of as many different ones as asked for); whatever was done with the dataset before (epochs, finished epochs which free the data, lookups), a sequence has the tag, text and audio of the entry which the current order says, the audio from the zip file the entry came from; an order by tags gives exactly the sequences with these tags and is refused when one is unknown; zip files and separate text documents are told apart by their names.", "quantifier": "every list of paths, every collection of zip files with documents, every segment list and subset, every history of calls", "why_tests_cant": "Tests use one small zip file and one epoch; errors with several zip files with equal file names, freed data, or names with dots depend on the combination.", "anchors": ["returnn/datasets/audio.py:OggZipDataset"]}
{"id": "C124", "title": "Piecewise linear functions and schedules", "statement": "A piecewise linear function (rf.PiecewiseLinear, and the scheduler by train step) of given points is the value of each point at its key, on the line between neighbouring points, constant outside of the keys, never outside of the range of the values, and does not depend on the order in which the points are given.", "quantifier": "every dict of points with different keys, every argument or step", "why_tests_cant": "Tests try a few arguments of one function; boundaries between pieces, ends and dicts in other orders are infinitely many cases.", "anchors": ["returnn/frontend/piecewise_linear.py:PiecewiseLinear", "returnn/frontend/stepwise_scheduler.py:PiecewiseLinearStepwiseScheduler"]}
{"id": "C125", "title": "Caches of functions of dims", "statement": "A function of dims which uses the frontend cache (positional encodings) gives in every call what it would give without the cache, with the dims of this call as axes, whatever was called before and whichever dims were freed since; the cache never has more entries than allowed, and the same call again is answered from it.", "quantifier": "every history of calls and of dims going out of scope, every key, every function which only uses the known sizes of its dims", "why_tests_cant": "Whether an entry of an earlier call is used depends on sizes and identities of dims over the whole history of a process.", "anchors": ["returnn/frontend/_cache.py:Cache", "returnn/frontend/attention.py:sinusoidal_positional_encoding"]}
{"id": "C126", "title": "Raw dicts of tensors carry everything over", "statement": "as_raw_tensor_dict gives each raw tensor under its name and the sizes of each dim under the name of a tensor and axis, and nothing else; each dim once when duplicates are left out. assign_from_raw_tensor_dict_ with matching options, on a template with the same tensors, succeeds and afterwards every tensor has the raw tensor and every dim the sizes of the source; other dims are not touched. all_dims lists each dim once, update lets the last one win, reset_content leaves no raw tensor or size.", "quantifier": "all dicts of tensors, dims shared between tensors in any way, options and names", "why_tests_cant": "Tests use one or two tensors; sharing of dims, the options on both sides and names are combined freely.", "anchors": ["returnn/tensor/tensor_dict.py:TensorDict.as_raw_tensor_dict", "returnn/tensor/tensor_dict.py:TensorDict.assign_from_raw_tensor_dict_", "returnn/tensor/tensor_dict.py:TensorDict.all_dims", "returnn/tensor/tensor_dict.py:TensorDict.reset_content"]}
{"id": "C127", "title": "Epoch progress is exact, increasing and complete", "statement": "When a dataset knows its number of sequences n, the torch data pipe yields each sequence once in order with its index, epoch, n and complete_frac (i+1)/n; in training with any batches, the continuous epoch increases in every step, stays in (epoch-1, epoch], is the epoch at the end, and the printed remaining time is that of the remaining sequences at the same speed. When n is not known, all sequences still come, without continuous epoch. With several processes the fractions never go back.", "quantifier": "all datasets, numbers of sequences, own fractions, splits into batches and times", "why_tests_cant": "The order of sequences, batches, processes and what is known about the number of sequences are combined; tests have a few fixed lengths.", "anchors": ["returnn/datasets/basic.py:Dataset.get_complete_frac", "returnn/datasets/basic.py:Dataset.generic_complete_frac", "returnn/torch/data/returnn_dataset_wrapper.py:ReturnnDatasetIterDataPipe.__iter__", "returnn/torch/data/pipeline.py:collate_batch", "returnn/torch/engine.py:_print_process", "returnn/datasets/multi_proc.py:MultiProcDataset._collect_single_seq"]}
{"id": "C128", "title": "TextDictDataset gives each search output with its tag, and its hypotheses can be told apart", "statement": "TextDictDataset turns a file with a dict from sequence tags to a text, or to a list of scores and texts, into sequences. In each epoch, when the order has each entry once, each entry is read exactly once, with its own tag. For lists, data_flat cut by data_seq_lens gives the labels of all hypotheses in their order, scores are in the same order, and data are the labels of the first hypothesis with the highest score. The order of an epoch goes by the number of characters, of all hypotheses for lists; a given order is taken as it is, a list of tags is refused. The check on loading only looks at the first entry; an empty list elsewhere is an error when it is read. When an order is given before anything was loaded, reading fails although the file is fine.", "quantifier": "All files, scores, texts, vocabularies, orders and epochs", "why_tests_cant": "Beams of all sizes with equal scores, empty texts and all orders of calls; tests load one small file", "anchors": ["returnn/datasets/text_dict.py: TextDictDataset._load", "init_seq_order", "_collect_single_seq", "get_tag", "get_all_tags"]}
{"id": "C129", "title": "Taking hypotheses out of a nested state and putting them back keeps each hypothesis's values, lengths and frames", "statement": "rf.nested.masked_select_nested packs the hypotheses of a mask: in each leaf of the nested state (tensors with or without the masked dims, with a sequence dim, and dims themselves), each selected hypothesis has at its place in the packed dim exactly what it had: value, length, and valid frames. masked_scatter_nested puts a packed state back: afterwards each hypothesis in the mask has exactly what it has in the packed state, also when sequences became longer or shorter in between, and each other one what it has in the backup. So a selection put back changes nothing. This needs each dynamic sequence dim to be a leaf as well; otherwise the packed tensor keeps the old dim and lengths are wrong.", "quantifier": "All masks, all nested states and sizes, and all packed states which fit to the backup", "why_tests_cant": "Depends on the interplay of two passes, dim maps and their inverse, padding and cutting for all lengths; tests have one or two states", "anchors": ["returnn/frontend/nested.py: masked_select_nested", "_masked_select_prepare_dims", "_masked_select", "masked_scatter_nested", "_masked_scatter_merge_dims", "_masked_scatter", "returnn/frontend/dims.py: replace_dim_v2", "returnn/torch/frontend/_backend.py: masked_select", "masked_scatter"]}
{"id": "C130", "title": "Gathering a nested state by backpointers gives each hypothesis what its predecessor had", "statement": "rf.nested.gather_nested with indices into the hypotheses gives a state where each new hypothesis has, in each leaf of the nested state, exactly what the hypothesis it goes on from had: values, lengths and valid frames of sequences, also when sequences of different lengths are mixed, when the longest ones are dropped (the new dim gets shorter) and when the number of hypotheses changes. What does not depend on the hypotheses stays as it is.", "quantifier": "All states, sizes and indices in range", "why_tests_cant": "Dims are replaced before the data is gathered; whether frames are lost depends on all lengths and all indices", "anchors": ["returnn/frontend/nested.py: gather_nested", "_gather_prepare_dims", "_gather", "returnn/frontend/dims.py: replace_dim_v2"]}
{"id": "C131", "title": "MapDatasetWrapper reads the entries by order or by tag", "statement": "MapDatasetWrapper over a user's map dataset: with a list of tags, init_seq_order works exactly if each tag exists, and sequence i then has the i-th tag (the last entry with it when tags are not unique); a given order is taken as it is; both together are refused; otherwise the user's own get_seq_order decides, and only if that is not implemented the seq_ordering option, with lengths if there are any; orders which need lengths are refused without them. Sequence i is the entry at place i of the order, with its tag, and num_seqs is the length of the order. supports_seq_order_sorting answers for every dataset where lengths work or are left out; for FromListDataset without sort_data_key, or with no entries, it raises instead of saying no.", "quantifier": "All datasets, tags (also not unique), orders, epochs and options", "why_tests_cant": "All combinations of optional methods, duplicate tags and orders; tests use one small list", "anchors": ["returnn/datasets/map.py: MapDatasetWrapper", "FromListDataset"]}
{"id": "C132", "title": "Running mean is the exponential moving average of what was seen in training", "statement": "After any history of calls of a running-mean module, in training and outside of it, the mean is the exponential moving average of exactly the inputs of the calls which update (training calls, or all if so configured), each reduced to the shape of the mean; other calls change nothing and return the mean. For factors between 0 and 1 the mean stays within the bounds of start and inputs, and a mean of probability distributions stays a distribution. Factor 0 never changes it, factor 1 always takes the newest input.", "quantifier": "all shapes, inputs, factors, train flags and lengths of history", "why_tests_cant": "The claim is about the value after arbitrarily many calls in any mix of training and evaluation.", "anchors": ["returnn/frontend/reduce.py:RunningMean"]}
{"id": "C133", "title": "Lion makes the steps of its rule, and keeps parameters bounded", "statement": "In every training with the Lion optimizer, each number of each parameter makes exactly the steps of the Lion rule for the options of its group, over the steps in which the parameter has a gradient; other steps leave value and state alone, and other parameters have no influence. Whatever the gradients are: without weight decay a number moves by at most the sum of the learning rates; with weight decay and learning rates up to its inverse it stays within the larger of its start and that inverse; a positive factor of the loss changes nothing.", "quantifier": "all parameters, groups, learning rate schedules, gradients and numbers of steps", "why_tests_cant": "Bounds for all gradients over arbitrarily long trainings cannot be shown by runs.", "anchors": ["returnn/torch/optim/lion.py:Lion", "returnn/torch/optim/lion.py:update_fn"]}
{"id": "C134", "title": "Dropout keeps the expected value, shares the mask, and does nothing outside of training", "statement": "Where dropout is applied, every cell is either zero or its value over the keep probability; which one depends only on the random number at the mask axes, so cells which differ only in other axes are dropped together; for a uniform random number the expected value is the source and the survival probability is the keep probability. Outside of training (unless asked for), or with probability 0, the source comes back unchanged. Wrong axes and probabilities outside of [0,1) are refused in training and outside.", "quantifier": "all tensors, axes, probabilities, random numbers and train flags", "why_tests_cant": "Expectations and masks range over all random numbers; a test sees a few draws.", "anchors": ["returnn/frontend/dropout.py:dropout", "returnn/frontend/dropout.py:_dropout"]}
{"id": "C135", "title": "Tensor arrays contain what was pushed, in order, and stack and unstack are inverse", "statement": "An array built by any number of pushes contains the pushed tensors in the order of the calls; a tensor whose dims (as a set) or sparse dim differ from the template is refused. Stacking gives a tensor whose value at an index is that of the tensor at this place on the new axis, however its dims were ordered; without tensors it gives zeros. Unstacking gives the slices along the axis, and stacking them gives the tensor again. Reading counts like Python lists. A push gives a new array and leaves the old one as it was.", "quantifier": "all tensors, dim orders, axes, indices and histories of pushes", "why_tests_cant": "Holds for all orders of dims and lengths of loops; aliasing shows only for particular histories.", "anchors": ["returnn/frontend/tensor_array.py:TensorArray", "returnn/frontend/_backend.py:tensor_array_push_back", "returnn/torch/frontend/_backend.py:tensor_array_stack"]}
{"id": "C136", "title": "BLEU scores are in range, perfect for perfect translations, and independent of sentence order", "statement": "For every corpus, the score counts for every order the clipped n-gram matches over all pairs of reference and translation; it is between 0 and 1, exactly 1 for a translation which equals the references, and does not depend on the order of the sentences. When every order has a match it is the geometric mean of the clipped precisions over all orders times the brevity penalty. It fails only without any order, or with the penalty and no reference token.", "quantifier": "all corpora of any tokens, all orders, with and without brevity penalty", "why_tests_cant": "Holds for all corpora, lengths, repetitions and orders.", "anchors": ["returnn/util/basic.py:compute_bleu", "returnn/util/basic.py:_get_ngrams"]}
{"id": "C137", "title": "Packing accepts all dims of the source, and marks exactly the real frames", "statement": "pack_padded and pad_packed work for any non-empty choice of dims, padded or not: they keep exactly the frames whose index is smaller than the size for their sequence in every padded dim; without padded frames the result is the reshaped tensor.", "quantifier": "all choices of static, batch and padded dims with any sizes", "why_tests_cant": "Ranges over all mixes of static and dynamic dims; tests have the usual batch and time.", "anchors": ["returnn/frontend/array_.py:sequence_mask", "returnn/frontend/array_.py:pack_padded", "returnn/frontend/array_.py:pad_packed", "returnn/frontend/array_.py:masked_select", "returnn/tensor/_dim_extra.py:get_mask"]}
{"id": "C138", "title": "Control flow contexts, the random journal and the tensors of a state", "statement": "A control flow context counts as parent of another exactly if it is met by going outwards from it (the root is a parent of all), which is an order; its stack lists exactly its parents and itself, outermost first, and the collected dims are those of the loops around it, outermost first. After a block with a context, the current context is what it was before, also after an exception. A random journal gives back the recorded entries completely and in order; a read with a template of other dtype or sizes, or beyond the end, is refused and does not move the position. The reader node given to a graph belongs to the same run and to a context around the current one. The flattened tensors of a state are all tensors somewhere in it, each once, and anything which is neither tensor, dict nor list is a TypeError.", "quantifier": "all chains of contexts, all programs of nested blocks with failures, all journals and sequences of reads with templates, all nested states", "why_tests_cant": "Tests use one loop in one loop, one recording, and a flat state; the claims are about every nesting, every failure point and every sequence of reads.", "anchors": ["returnn/tensor/control_flow_ctx.py: ControlFlowContext.is_parent_or_same", "abs_ctx_stack", "collect_parent_dims", "returnn/frontend/control_flow_ctx.py: control_flow_ctx", "returnn/frontend/_random_journal.py: RandomJournal", "returnn/frontend/state.py: State.cls_flatten_tensors"]}
{"id": "C139", "title": "All given options are read", "statement": "For options which track their reads, after any sequence of reads the final check passes exactly if every given option was asked for, by name (with or without a default) or by an iteration which reached it; otherwise it is an assertion. Asking for options which are not given neither helps nor hurts. Reads never change an option: a given one has its value, with a default only options which are not given get the default, and by name those are a KeyError. The truth value is the given one, else whether there are options.", "quantifier": "all dicts of options and all sequences of reads, lookups with defaults and partial iterations", "why_tests_cant": "A test shows one typo being found; that no option can be missed or wrongly reported is about every sequence of reads.", "anchors": ["returnn/util/basic.py: CollectionReadCheckCovered"]}
{"id": "C140", "title": "Static random seeds and sampling without replacement", "statement": "Setting the random seed gives step seeds in the range the generator accepts, different for different seeds (modulo 2^31), and forgets all that happened before. In every step which begins with a reset, the same sequence of calls with static randomness gets the same seeds, whatever other steps did; a call gets the next number of the step generator exactly if it is static, without explicit state and without own seed, and all other calls use up nothing. Sampling without replacement gives exactly as many indices as asked for, all different, none of the others with a higher score, more than there are is refused, with noise scale 0 it is top-k, and a single sample is each index with exactly its (normalised) probability.", "quantifier": "all seeds, all programs of resets, seeds and calls, all log probabilities of any number of classes, all uniform random numbers (with their Lebesgue measure)", "why_tests_cant": "A test draws some samples and compares frequencies roughly; the exact probability and the independence of history are about all random numbers and programs.", "anchors": ["returnn/frontend/rand.py: set_random_seed", "returnn/frontend/rand.py: reset_step_random_state", "returnn/frontend/rand.py: get_static_step_based_seed", "returnn/frontend/rand.py: random", "returnn/frontend/rand.py: random_choice_without_replacement"]}
{"id": "C141", "title": "The dataset of text dumps: which files are used, and reading them in batches", "statement": "The dataset of numbered text dumps uses all files of its range; a missing file in a given range is refused. Sequences which are loaded from the beginning, or further from one which is still in memory, have the content of the file which the order of the epoch says, and memory then holds exactly the sequences from the first one asked for. (The code breaks two expectations: without a given end the last file is never used, and a single file is refused; and loading a following range without overlap is an assertion.)", "quantifier": "all sets of existing files, ranges, orders of sequences, and sequences of loads", "why_tests_cant": "A test has a few files with a given end and loads all at once; which files and ranges work is about all of them.", "anchors": ["returnn/datasets/numpy_dump.py: NumpyDumpDataset._init_num_seqs", "returnn/datasets/numpy_dump.py: NumpyDumpDataset._load_seqs", "returnn/datasets/numpy_dump.py: NumpyDumpDataset._add_cache_seq", "returnn/datasets/numpy_dump.py: NumpyDumpDataset.get_seq_length"]}
{"id": "C142", "title": "Partitions of the stereo dataset", "statement": "The partitions of the stereo dataset follow each other and together are all sequences of all files; all have the same size, the last one has the rest in addition; the epochs go over them in turn, and a position of an epoch gives a sequence of its partition, never an error. If the number of sequences is a multiple of the number of partitions, an epoch reads each sequence of its partition exactly once. (Otherwise the code breaks the expectation: the rest is never read, and with less sequences than partitions nothing at all.)", "quantifier": "all lists of files and sequences, numbers of partitions, epochs and orders within the partition", "why_tests_cant": "A test has one file and one partition; tiling and the rest are about all numbers.", "anchors": ["returnn/datasets/stereo.py: StereoDataset._get_partition_size", "returnn/datasets/stereo.py: StereoDataset.init_seq_order", "returnn/datasets/stereo.py: StereoHdfDataset._collect_single_seq", "returnn/datasets/stereo.py: StereoHdfDataset.num_seqs"]}
{"id": "C143", "title": "Frames of raw wave files", "statement": "The frames of a raw wave signal have all the given length, frame i begins at sample i times the shift, behind the end of the signal there are zeros, less than one shift of them, and if the shift is at most the length of a frame then every sample is in some frame. (The code breaks this for short signals: one which is shorter than a frame by the shift or more gives no frames at all, by twice the shift or more a ValueError.)", "quantifier": "all signals, frame lengths and shifts", "why_tests_cant": "A test uses a few lengths; boundaries of the padding are about all combinations.", "anchors": ["returnn/datasets/raw_wav.py: RawWavDataset._get_input_features"]}
{"id": "C144", "title": "Targets of the generated tasks", "statement": "For every input of a generated task, the target is the one the task is named after. 12AX: one label for every character, R exactly for an X after A (or Y after B, with no other of A, B, X, Y in between) while the last of the digits 1 and 2 was 1 (or 2), and L otherwise. Episodic copy: blanks up to and with the delimiter, then all characters from before it in order, then the delimiter; the generated input leaves exactly the time for that. Base conversion: the digits of the same number in the other base, each smaller than the base, without leading zeros, and a single 0 for zero. XML: no generated input is refused; every output character is unknown or the next input character, and in a closing tag after the slash all are known.", "quantifier": "all inputs, all lengths, all bases of at least 2", "why_tests_cant": "Tests check a few sequences; the property is about every sequence and number.", "anchors": ["returnn/datasets/generating.py:Task12AXDataset.make_output_seq", "returnn/datasets/generating.py:TaskEpisodicCopyDataset.make_output_seq", "returnn/datasets/generating.py:TaskNumberBaseConvertDataset.make_output_seq", "returnn/datasets/generating.py:TaskXmlModelingDataset.make_output_seq"]}
{"id": "C145", "title": "Words of the staircase automaton", "statement": "For every batch of sequence lengths and skip limits, the staircase automaton for Baum-Welch has one part per sequence with its start and end state; every edge is in the part of the sequence it names, never goes back and emits a position of that sequence; no edge is there twice, and from start to end there is at most one path with given emissions. Without loops the emissions of the paths are exactly the non-empty strictly increasing sequences of positions whose steps keep the limits; with loops they are exactly the non-empty sequences of positions that do not decrease and whose steps stay or keep the limits. Exactly a batch with an empty sequence is refused.", "quantifier": "all batches, all lengths, all skip limits, all words", "why_tests_cant": "The sum over all paths is wrong if a word has no path or two; tests look at a few lengths only.", "anchors": ["returnn/util/fsa.py:fast_bw_fsa_staircase"]}
{"id": "C146", "title": "Pretty-printed objects are their expressions", "statement": "For every nested object of lists, tuples, sets, dicts, arrays and other values, the pretty-printed text has exactly the tokens of the Python expression for the object (with the comma of a tuple of one, set() for an empty set, keys before their values, commas only between items); new lines are only inside of brackets, but for the last one; what is on one line or several only changes whitespace; and an object which is simple by the score is on one line.", "quantifier": "all nested objects, all scores", "why_tests_cant": "Tests compare the text of a few objects; a lost comma or key depends on the nesting.", "anchors": ["returnn/util/pprint.py:pprint", "returnn/util/pprint.py:pformat"]}
{"id": "C147", "title": "Compiled libraries are those asked for", "statement": "For every history of runs which may stop at any point (also while the compiler or the info file is written), a run which returns leaves a complete library that was compiled with the same code, macros, flags, ABI and include paths as asked for; a later run can always succeed; a library used recently is not deleted by the cleanup. In the code, for runs one after the other, a returned library is complete and has the same code, macros and flags; but ABI and include paths are not compared, a torn info file makes all later runs fail, a run which waited for the lock compiles again in place and can leave an incomplete library which is taken as complete, and the use of a library is marked on a file the cleanup does not look at.", "quantifier": "all histories of runs, all stop points, all configurations", "why_tests_cant": "The failures need a stop within a small window, two processes, or a library older than the limit.", "anchors": ["returnn/util/native_code_compiler.py:NativeCodeCompiler._maybe_compile", "returnn/util/native_code_compiler.py:NativeCodeCompiler._need_recompile", "returnn/util/native_code_compiler.py:NativeCodeCompiler._cleanup_old"]}
{"id": "C148", "title": "Environment variables in strings", "statement": "expand_env_vars replaces $var or ${var} by the value of the environment variable, with the longest name, $$ by one dollar, and leaves all other text as it is; values are not expanded again. TMPDIR, TEMP, TMP and USER have defaults if they are not defined; any other undefined variable and any other use of a dollar is a ValueError. Doubling the dollars of a text always gives it back.", "quantifier": "every text and every environment", "why_tests_cant": "Texts and environments are unbounded; values may contain dollars.", "anchors": ["returnn/util/basic.py:expand_env_vars"]}
{"id": "C149", "title": "Guard against infinite recursion", "statement": "guard_infinite_recursion raises InfiniteRecursionDetected exactly if a guard with the same arguments (by identity) is open around it; however the guarded code ends, the open guards afterwards are those before, so that a later call with the same arguments is fine. A recursion whose arguments come from finitely many is detected at the latest at that depth. Without arguments it is a ValueError.", "quantifier": "every program with nested guards, exceptions and handlers, and every set of open guards", "why_tests_cant": "Programs, nesting depths and the places of exceptions are unbounded.", "anchors": ["returnn/util/basic.py:guard_infinite_recursion"]}
