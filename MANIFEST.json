{
 "claims": [
  {
   "property": "C01",
   "status": "proved",
   "theorems": [
    "Verif.SeqOrder.partition_tiles",
    "Verif.SeqOrder.partition_balanced",
    "Verif.SeqOrder.partition_fails_iff"
   ],
   "note": "Slices tile the order; balanced; errors exactly for invalid shard index."
  },
  {
   "property": "C02",
   "status": "partial",
   "theorems": [
    "Verif.SeqOrder.order_is_permutation_partial",
    "Verif.SeqOrder.default_order",
    "Verif.SeqOrder.reverse_order",
    "Verif.SeqOrder.sorted_stable",
    "Verif.SeqOrder.sorted_reverse_stable",
    "Verif.SeqOrder.sort_bin_shuffle_structure",
    "Verif.SeqOrder.sort_bin_shuffle_int_iff",
    "Verif.SeqOrder.sort_bin_shuffle_float_indices",
    "Verif.SeqOrder.default_every_n_layout",
    "Verif.SeqOrder.default_every_n_perm",
    "Verif.SeqOrder.default_every_n_drops"
   ],
   "note": "Permutation proved for all listed orderings. Refuted for sort_bin_shuffle with more bins than seqs: the indices come out as floats (sort_bin_shuffle_float_indices). default_every_n (not listed in the statement) drops n % k seqs (default_every_n_drops)."
  },
  {
   "property": "C03",
   "status": "proved",
   "theorems": [
    "Verif.SeqOrder.full_epoch_coverage",
    "Verif.SeqOrder.seed_constant_in_full_epoch",
    "Verif.SeqOrder.seed_differs_between_full_epochs"
   ],
   "note": "For every random generator; generalised to repeat_epoch."
  },
  {
   "property": "C04",
   "status": "proved",
   "theorems": [
    "Verif.SeqOrder.laplace_structure",
    "Verif.SeqOrder.laplace_fails"
   ],
   "note": ""
  },
  {
   "property": "C05",
   "status": "proved",
   "theorems": [
    "Verif.SeqOrder.repeat_epoch_repeats",
    "Verif.SeqOrder.unique_seq_tags_first",
    "Verif.SeqOrder.seq_tags_filter_filters"
   ],
   "note": ""
  },
  {
   "property": "C06",
   "status": "proved",
   "theorems": [
    "Verif.DistribFiles.distribute_covers",
    "Verif.DistribFiles.distribute_fails"
   ],
   "note": "for every float arithmetic (no assumption on rounding)"
  },
  {
   "property": "C07",
   "status": "proved",
   "theorems": [
    "Verif.DistribFiles.files_covered_once",
    "Verif.DistribFiles.too_few_files_fails"
   ],
   "note": ""
  },
  {
   "property": "C08",
   "status": "proved",
   "theorems": [
    "Verif.Pipeline.batching_correct",
    "Verif.Pipeline.batching_limits",
    "Verif.Pipeline.batching_bad_max_seqs",
    "Verif.Pipeline.parse_limits"
   ],
   "note": "All streams, per-key lengths, constant or per-seq limits. Model: Verif/Pipeline/Model.lean; spec GoodBatching in Spec.lean. Lengths and limits are integers."
  },
  {
   "property": "C09",
   "status": "proved",
   "theorems": [
    "Verif.Pipeline.bucketing_correct",
    "Verif.Pipeline.bucketing_covers",
    "Verif.Pipeline.bucketOf_spec",
    "Verif.Pipeline.bucketing_bad_config"
   ],
   "note": "All streams, bucket configs and random outcomes."
  },
  {
   "property": "C10",
   "status": "proved",
   "theorems": [
    "Verif.Pipeline.chunks_getElem",
    "Verif.Pipeline.chunks_cover",
    "Verif.Pipeline.chunks_concat",
    "Verif.Pipeline.chunks_bad_step",
    "Verif.Pipeline.chunkSeq_spec",
    "Verif.Pipeline.chunking_stream",
    "Verif.Pipeline.chunking_mismatch_fails"
   ],
   "note": "Per-array theorem plus the multi-key pipe."
  },
  {
   "property": "C11",
   "status": "partial",
   "theorems": [
    "Verif.Pipeline.lenFilter_correct",
    "Verif.Pipeline.shuffling_correct_partial",
    "Verif.Pipeline.shuffling_empty_fails"
   ],
   "note": "Length filter fully; shuffling for every non-empty stream. On an empty stream the code raises AssertionError (proved), which contradicts the property."
  },
  {
   "property": "C12",
   "status": "partial",
   "theorems": [
    "Verif.Legacy.chunkSeq_chunks",
    "Verif.Legacy.chunkSeq_covers_partial",
    "Verif.Legacy.chunkSeq_ends",
    "Verif.Legacy.restrict_spec",
    "Verif.Legacy.iterateSeqs_stream",
    "Verif.Legacy.single_frame_key_truncates"
   ],
   "note": "Exact chunk ranges and stop condition for every config; coverage for min_chunk_size 0 if no key has length 0/1 beside longer keys. For such keys the claim is false (single_frame_key_truncates): the chunking stops after the first chunk."
  },
  {
   "property": "C13",
   "status": "partial",
   "theorems": [
    "Verif.Legacy.generateBatches_partial",
    "Verif.Legacy.chunk_context",
    "Verif.Legacy.max_total_num_seqs_off_by_one",
    "Verif.Legacy.last_empty_seqs_lost"
   ],
   "note": "Recurrent case. False in the code: max_total_num_seqs admits one seq more, and a last batch with only empty seqs is lost; both refuted by witness. The non-recurrent case is not modelled."
  },
  {
   "property": "C14",
   "status": "proved",
   "theorems": [
    "Verif.Legacy.bsg_refines_cursor"
   ],
   "note": "Every sequence of peek/advance/has_more/reset/index calls; shuffling on reset is not modelled."
  },
  {
   "property": "C15",
   "status": "proved",
   "theorems": [
    "Verif.Lru.lru_refines",
    "Verif.Lru.lru_bounded",
    "Verif.Lru.used_is_last",
    "Verif.Lru.others_keep_order",
    "Verif.Lru.stats_count",
    "Verif.Lru.cache_set_keeps_old"
   ],
   "note": "Heap-level model of the linked list; every history of API steps. cache_set does not overwrite an existing entry (shown)."
  },
  {
   "property": "C16",
   "status": "proved",
   "theorems": [
    "Verif.Lru.memo_transparent",
    "Verif.Lru.makeKey_injective",
    "Verif.Lru.insert_race_keyerror"
   ],
   "note": "Any interleaving of lookups and inserts (re-entrant calls, other threads), each step atomic under the lock. Not covered by the lock in the code: the check maxsize > 0 before the insert; a concurrent cache_set_maxsize(0) there raises KeyError (insert_race_keyerror)."
  },
  {
   "property": "C17",
   "status": "partial",
   "theorems": [
    "Verif.NumbersDict.binOp_keywise",
    "Verif.NumbersDict.binOp_keys",
    "Verif.NumbersDict.iBinOp_eq_binOp",
    "Verif.NumbersDict.selfBinOp_eq_binOp",
    "Verif.NumbersDict.arith_keywise",
    "Verif.NumbersDict.get_constantLike",
    "Verif.NumbersDict.scalar_arith",
    "Verif.NumbersDict.maxList_is_max",
    "Verif.NumbersDict.minList_is_min",
    "Verif.NumbersDict.max_empty_fails",
    "Verif.NumbersDict.anyCompare_iff",
    "Verif.NumbersDict.anyCompare_some_key_partial",
    "Verif.NumbersDict.anyCompare_misses_key",
    "Verif.NumbersDict.eq_iff",
    "Verif.NumbersDict.eq_refl_symm",
    "Verif.NumbersDict.eq_not_transitive",
    "Verif.NumbersDict.extremum_spec",
    "Verif.NumbersDict.copyLike_spec"
   ],
   "note": "any_compare ignores keys which are explicit only in the other operand (anyCompare_misses_key); proved exactly for what it does and for the case where all keys are in self."
  },
  {
   "property": "C18",
   "status": "proved",
   "theorems": [
    "Verif.Framing.framing_prefix",
    "Verif.Framing.framing_roundtrip",
    "Verif.Framing.deserialize_serialize",
    "Verif.Framing.write_ok_iff"
   ],
   "note": "For every list of objects, every prefix of the written bytes and every sequence of read sizes; pickling is a parameter with load(dump(o)) = o."
  },
  {
   "property": "C19",
   "status": "proved",
   "theorems": [
    "Verif.MathUtil.stepLookup_nearest",
    "Verif.MathUtil.stepFunction_nearest",
    "Verif.MathUtil.selectArg_kw",
    "Verif.MathUtil.selectArg_pos"
   ],
   "note": "Exact rationals instead of floats."
  },
  {
   "property": "C20",
   "status": "proved",
   "theorems": [
    "Verif.MathUtil.ceilDiv_least",
    "Verif.MathUtil.ceilDiv_least_neg",
    "Verif.MathUtil.ceilDiv_zero",
    "Verif.MathUtil.nextPowerOfTwo_least",
    "Verif.MathUtil.nextPowerOfTwo_nonpos"
   ],
   "note": "Also the behaviour outside of the claim: negative divisors, n <= 0 (where the result is not the least power)."
  },
  {
   "property": "C21",
   "status": "partial",
   "theorems": [
    "Verif.ListUtil.binarySearchAny_spec",
    "Verif.ListUtil.binarySearchAny_empty",
    "Verif.EpochFilter.filterEpoch_partial",
    "Verif.EpochFilter.filterEpoch_exceeds",
    "Verif.EpochFilter.filterEpoch_empty",
    "Verif.EpochFilter.filterEpoch_none",
    "Verif.EpochFilter.filter_spec",
    "Verif.EpochFilter.filter_single",
    "Verif.EpochFilter.filter_none_end_typeError"
   ],
   "note": "The search is proved. The mean length claim of the filter is false (filterEpoch_exceeds): one sequence too many can be kept; filterEpoch_partial says exactly what holds."
  },
  {
   "property": "C22",
   "status": "proved",
   "theorems": [
    "Verif.ListUtil.findRanges_spec",
    "Verif.ListUtil.uniq_spec",
    "Verif.ListUtil.uniqGeneric_spec",
    "Verif.ListUtil.uniqGeneric_not_uniq",
    "Verif.ListUtil.slicePadZeros_spec",
    "Verif.ListUtil.slicePadZeros_before_start"
   ],
   "note": "slice_pad_zeros raises if the whole slice is before the start (begin <= end < 0): proved with the exact domain."
  },
  {
   "property": "C23",
   "status": "proved",
   "theorems": [
    "Verif.Laplace.laplace_spec",
    "Verif.Laplace.laplace_perm",
    "Verif.Laplace.laplace_empty"
   ],
   "note": "For non-empty streams; the empty stream raises an AssertionError (laplace_empty)."
  },
  {
   "property": "C24",
   "status": "partial",
   "theorems": [
    "Verif.MultiProc.seq_order_sharding_equiv_partial",
    "Verif.MultiProc.dedicated_sharding_covers",
    "Verif.MultiProc.dedicated_full_epoch",
    "Verif.MultiProc.dedicated_subepoch_differs",
    "Verif.MultiProc.dedicated_repeat_loses_seqs"
   ],
   "note": "seq_order sharding: proved. dedicated sharding: without repeat_epoch and filters each seq is read once per full epoch; equality with the unsharded sub-epochs is refuted, and with repeat_epoch seqs are lost (both with witnesses)."
  },
  {
   "property": "C25",
   "status": "proved",
   "theorems": [
    "Verif.Cached2.run_refines",
    "Verif.Cached2.collected_once",
    "Verif.Cached2.load_then_data",
    "Verif.Cached2.empty_epoch_fails",
    "Verif.Cached2.no_epoch"
   ],
   "note": "All histories of load_seqs/is_less_than_num_seqs/get_seq_length/get_tag/get_data/get_num_timesteps; get_num_timesteps needs that no sequence was skipped. Exceptions are part of the specification; is_less_than_num_seqs on an empty epoch of unknown length fails (empty_epoch_fails)."
  },
  {
   "property": "C26",
   "status": "partial",
   "theorems": [
    "Verif.FileCache.hit_not_stale",
    "Verif.FileCache.copied_not_torn_partial",
    "Verif.FileCache.torn_not_used",
    "Verif.FileCache.no_decode_error",
    "Verif.FileCache.hit_size",
    "Verif.FileCache.undisturbed",
    "Verif.FileCache.recovers",
    "Verif.FileCache.torn_served",
    "Verif.FileCache.stale_served"
   ],
   "note": "Proved for all interleavings of source changes, crashes, exceptions and cleanups: a reused copy is a content the source had since the call got the lock; a fresh copy is the source unless the source was changed during the copy. Missing: if the source is changed during the copy, get_file may return a torn file (torn_served). The lock is assumed to exclude other copies of the same file (see C29)."
  },
  {
   "property": "C27",
   "status": "partial",
   "theorems": [
    "Verif.FileCache.getFile_partial",
    "Verif.FileCache.getFile_all_full",
    "Verif.FileCache.getFile_other",
    "Verif.FileCache.getFile_retry_useless"
   ],
   "note": "The property is false of the code: last_error is never reset, so a successful retry still raises (getFile_retry_useless). Proved: get_file returns iff the first attempt succeeds, and which error is raised otherwise."
  },
  {
   "property": "C28",
   "status": "proved",
   "theorems": [
    "Verif.FileCache.cleanup_spec",
    "Verif.FileCache.cleanup_keeps_used",
    "Verif.FileCache.cleanup_skip",
    "Verif.FileCache.need_le_want"
   ],
   "note": "For the mtimes read by the cleanup; files whose mtime changes between reading and deletion are not modelled. cleanup_keeps_used needs that the configured ages are not below the safety window."
  },
  {
   "property": "C29",
   "status": "partial",
   "theorems": [
    "Verif.LockFile.mutex_partial",
    "Verif.LockFile.mutex_no_crash",
    "Verif.LockFile.two_holders",
    "Verif.LockFile.unlock_fails",
    "Verif.LockFile.takeover",
    "Verif.LockFile.waits"
   ],
   "note": "The property is false of the code (two_holders): two waiting processes may both find a stale lock, and the second removes the new lock of the first. Proved: mutual exclusion if a removed lock file is still the one which was found to be old, or if no process crashes."
  },
  {
   "property": "C30",
   "status": "partial",
   "theorems": [
    "Verif.FileCache.touch_exact",
    "Verif.FileCache.touch_underflow",
    "Verif.FileCache.Thread.thread_alive_partial",
    "Verif.FileCache.Thread.round_touches",
    "Verif.FileCache.Thread.dead_stays",
    "Verif.FileCache.Thread.thread_dies"
   ],
   "note": "Counters: proved for all histories in which no file is removed more often than added. Thread: it dies if a file is deleted after the thread has read the list (thread_dies), which happens at the end of get_file with the lock file; otherwise it stays alive and touches all."
  },
  {
   "property": "C31",
   "status": "proved",
   "theorems": [
    "Verif.LearningRate.lr_ge_min",
    "Verif.LearningRate.lr_le_max",
    "Verif.LearningRate.rate_stable",
    "Verif.LearningRate.explicit_rate",
    "Verif.LearningRate.relative_train",
    "Verif.LearningRate.abs_train",
    "Verif.LearningRate.multi_train",
    "Verif.LearningRate.constant_train",
    "Verif.LearningRate.train_first",
    "Verif.LearningRate.train_antitone",
    "Verif.LearningRate.train_hold",
    "Verif.LearningRate.error_key_configured",
    "Verif.LearningRate.error_key_configured_list",
    "Verif.LearningRate.error_key_dev",
    "Verif.LearningRate.error_key_exists",
    "Verif.LearningRate.set_error_stores",
    "Verif.LearningRate.zero_score_fails",
    "Verif.LearningRate.decay_raises",
    "Verif.LearningRate.multi_thresholds_fail"
   ],
   "note": "Over exact rationals instead of floats. Violations are proved too: a score of exactly 0 raises ZeroDivisionError (zero_score_fails), decay of a rate below the minimum raises it (decay_raises), overlapping multi-epoch thresholds raise AssertionError (multi_thresholds_fail)."
  },
  {
   "property": "C32",
   "status": "proved",
   "theorems": [
    "Verif.Engine.cleanup_spec",
    "Verif.Engine.cleanup_keeps_last",
    "Verif.Engine.cleanup_ok",
    "Verif.Engine.cleanup_dry",
    "Verif.Engine.cleanup_keyError"
   ],
   "note": "Scores are rationals (no NaN). A stored epoch without entry in the learning rate file gives KeyError (cleanup_keyError)."
  },
  {
   "property": "C33",
   "status": "partial",
   "theorems": [
    "Verif.Engine.resume_auto",
    "Verif.Engine.resume_ignores_load_epoch",
    "Verif.Engine.start_fresh_partial",
    "Verif.Engine.start_epoch_ignored",
    "Verif.Engine.start_import",
    "Verif.Engine.start_load",
    "Verif.Engine.start_epoch_one",
    "Verif.Engine.start_epoch_explicit",
    "Verif.Engine.start_epoch_missing",
    "Verif.Engine.start_epoch_and_load",
    "Verif.Engine.task_load_epoch",
    "Verif.Engine.load_epoch_missing",
    "Verif.Engine.task_load",
    "Verif.Engine.task_last",
    "Verif.Engine.mem_existing",
    "Verif.Engine.existing_last",
    "Verif.Engine.epochFile_injective"
   ],
   "note": "All cases of the options are covered. The claim 'starts at start_epoch if there is no checkpoint' is false of the code: start_epoch_ignored proves that training then starts at epoch 1."
  },
  {
   "property": "C34",
   "status": "proved",
   "theorems": [
    "Verif.Stats.stats_exact",
    "Verif.Stats.stats_split_independent",
    "Verif.Stats.mean_sq_exact",
    "Verif.Stats.stats_no_data"
   ],
   "note": "Exact rationals; one coordinate; the square root of get_std_dev is not modelled."
  },
  {
   "property": "C35",
   "status": "partial",
   "theorems": [
    "Verif.LearningRate.Save.round_trip_partial",
    "Verif.LearningRate.Save.epoch_round_trip",
    "Verif.LearningRate.Save.eval_betterRepr",
    "Verif.LearningRate.Save.save_atomic",
    "Verif.LearningRate.Save.save_done",
    "Verif.LearningRate.Save.never_torn",
    "Verif.LearningRate.Save.one_tuple_broken",
    "Verif.LearningRate.Save.meta_score_moves"
   ],
   "note": "Round trip for data without one-string tuples and without score names starting with :meta:; these two exceptions are refuted (one_tuple_broken, meta_score_moves). The file is modelled as Python expression trees, not characters."
  },
  {
   "property": "C36",
   "status": "partial",
   "theorems": [
    "Verif.Bpe.encode_lossless_partial",
    "Verif.Bpe.encode_in_vocab",
    "Verif.Bpe.encode_is_bpe",
    "Verif.Bpe.mergeLoop_encodes",
    "Verif.Bpe.cache_transparent",
    "Verif.Bpe.sentence_words",
    "Verif.Bpe.sentence_lossless_partial",
    "Verif.Bpe.encode_loses_eow",
    "Verif.Bpe.encode_bad_codes",
    "Verif.Bpe.encode_empty_segment",
    "Verif.Bpe.encode_empty",
    "Verif.Bpe.encode_version"
   ],
   "note": "Lossless for all words without the end-of-word symbol, all well-formed codes files, both versions, with and without vocabulary, and for sentences without category words. False for words which contain </w> and for codes files which tear the symbol apart (proved)."
  },
  {
   "property": "C37",
   "status": "proved",
   "theorems": [
    "Verif.BpeTree.split_sound",
    "Verif.BpeTree.split_complete",
    "Verif.BpeTree.split_total",
    "Verif.BpeTree.split_found_iff",
    "Verif.BpeTree.sync_splits",
    "Verif.BpeTree.dfs_in_sync",
    "Verif.BpeTree.sentence_splits",
    "Verif.BpeTree.sentence_fails",
    "Verif.BpeTree.short_merge_symbol"
   ],
   "note": "For every sampler. Options: merge symbol of at least two characters (as in all uses, @@), word prefix symbol of one character; false for a merge symbol of one character (short_merge_symbol)."
  },
  {
   "property": "C38",
   "status": "partial",
   "theorems": [
    "Verif.Vocab.parseLabels_get?",
    "Verif.Vocab.parseLabels_consistent_iff",
    "Verif.Vocab.parseLabels_bijective",
    "Verif.Vocab.parseDict_ok",
    "Verif.Vocab.parseDict_bijective",
    "Verif.Vocab.parseDict_accepts",
    "Verif.Vocab.linesDict_accepted_iff",
    "Verif.Vocab.dictFromLabels_ok_iff",
    "Verif.Vocab.id_label_id",
    "Verif.Vocab.label_id_label",
    "Verif.Vocab.lookup_missing",
    "Verif.Vocab.init_unknown",
    "Verif.Vocab.init_missing",
    "Verif.Vocab.init_succeeds",
    "Verif.Vocab.indices_unknown",
    "Verif.Vocab.indices_no_unknown",
    "Verif.Vocab.seq_roundtrip",
    "Verif.Vocab.sentence_roundtrip",
    "Verif.Vocab.char_roundtrip",
    "Verif.Vocab.char_sentence_roundtrip",
    "Verif.Vocab.byte_roundtrip",
    "Verif.Vocab.byte_seq_roundtrip",
    "Verif.Vocab.create_keeps_labels",
    "Verif.Vocab.create_class",
    "Verif.Vocab.negative_id",
    "Verif.Vocab.duplicate_label",
    "Verif.Vocab.unknown_minus_one",
    "Verif.Vocab.same_id_accepted"
   ],
   "note": "Round trips hold for vocabularies without duplicate labels/ids, valid ids, labels without whitespace, no postfix; the remaining cases are refuted (negative_id, duplicate_label, unknown_minus_one, same_id_accepted)."
  },
  {
   "property": "C39",
   "status": "partial",
   "theorems": [
    "Verif.Combined.init_serves",
    "Verif.Combined.init_fails",
    "Verif.Combined.isLess_spec",
    "Verif.Combined.isLess_known",
    "Verif.Combined.default_complete",
    "Verif.Combined.reversed_order",
    "Verif.Combined.random_complete",
    "Verif.Combined.random_end_fails",
    "Verif.Combined.subWindow_exact",
    "Verif.Combined.loadSeqs_ok"
   ],
   "note": "For every joint order the combined dataset serves exactly what the order says; orders made on demand are complete; load windows are exact and never trip the sub-datasets. Not full: with random_dataset and stale estimates the end of the epoch is a ValueError (random_end_fails)."
  },
  {
   "property": "C40",
   "status": "partial",
   "theorems": [
    "Verif.Combined.randomDatasetOrder_spec",
    "Verif.Combined.sampling_cyclic",
    "Verif.Combined.sampling_spec",
    "Verif.Combined.sampling_empty",
    "Verif.Combined.sampling_extra_keys"
   ],
   "note": "Proved for non-empty sub-datasets; an empty sub-dataset is a ZeroDivisionError and sizes of unknown keys add copies of sequence 0."
  },
  {
   "property": "C41",
   "status": "partial",
   "theorems": [
    "Verif.MultiEpoch.epoch_concat_partial",
    "Verif.MultiEpoch.epoch_all_partial",
    "Verif.MultiEpoch.single_inner",
    "Verif.MultiEpoch.empty_inner_fails",
    "Verif.MultiEpoch.concat_fails",
    "Verif.MultiEpoch.skip_misaligned",
    "Verif.MultiEpoch.empty_list_ignored"
   ],
   "note": "Proved if no inner epoch but maybe the first is empty and no sequence is skipped. The code violates it otherwise (empty_inner_fails, concat_fails, skip_misaligned, empty_list_ignored)."
  },
  {
   "property": "C42",
   "status": "partial",
   "theorems": [
    "Verif.MetaDs.init_fresh_partial",
    "Verif.MetaDs.init_list",
    "Verif.MetaDs.init_order",
    "Verif.MetaDs.init_keeps_list",
    "Verif.MetaDs.init_after_failure",
    "Verif.MetaDs.init_not_rewound",
    "Verif.Concat.inv_init",
    "Verif.Concat.reinit_same_epoch_fails",
    "Verif.Combined.reinit_same_epoch_fails",
    "Verif.DistribFiles.reinit_same_epoch_reuses_worker"
   ],
   "note": "Holds for a new epoch. Violated for a second init_seq_order of the same epoch: witnesses for MetaDataset, ConcatDataset, CombinedDataset and DistributeFilesDataset."
  },
  {
   "property": "C43",
   "status": "proved",
   "theorems": [
    "Verif.SeqWorker.worker_serves",
    "Verif.SeqWorker.sequential_legal",
    "Verif.SeqWorker.worker_no_rewind"
   ],
   "note": ""
  },
  {
   "property": "C44",
   "status": "proved",
   "theorems": [
    "Verif.MathUtil.piecewiseLinear_spec",
    "Verif.MathUtil.selectArg_kw",
    "Verif.MathUtil.selectArg_pos"
   ],
   "note": "numpy.interp is modelled on exact rationals."
  },
  {
   "property": "C45",
   "status": "proved",
   "theorems": [
    "Verif.MathUtil.seedBytes_injective",
    "Verif.MathUtil.seedBytes_ok_iff",
    "Verif.MathUtil.mergeRandomSeeds_range",
    "Verif.MathUtil.mergeRandomSeeds_collision"
   ],
   "note": "SHA-256 is a parameter."
  },
  {
   "property": "C46",
   "status": "partial",
   "theorems": [
    "Verif.MathUtil.simplifyFormat_partial",
    "Verif.MathUtil.simplifyFormat_wrong"
   ],
   "note": "Proved for floats printed without an exponent; false for ints with trailing zeros and floats with an exponent: refuted with witnesses."
  },
  {
   "property": "C47",
   "status": "partial",
   "theorems": [
    "Verif.FileCache.parent_dirs_spec_partial",
    "Verif.FileCache.parent_dirs_diverge",
    "Verif.FileCache.parent_dirs_base"
   ],
   "note": "Proved for cache directories without a slash at the end. With a slash at the end the loop never ends (parent_dirs_diverge); for a source file directly in the root directory the thread dies of an assertion (parent_dirs_base)."
  },
  {
   "property": "C48",
   "status": "proved",
   "theorems": [
    "Verif.LearningRate.last_best_spec",
    "Verif.LearningRate.last_best_only_last_n"
   ],
   "note": "Of several best epochs the earliest is returned, despite the name."
  },
  {
   "property": "C49",
   "status": "partial",
   "theorems": [
    "Verif.Engine.checkpoints_as_without_crash",
    "Verif.Engine.lr_file_as_without_crash",
    "Verif.Engine.training_never_fails",
    "Verif.Engine.training_finishes",
    "Verif.Engine.resume_never_goes_back_partial",
    "Verif.Engine.lost_work_bound_partial",
    "Verif.Engine.resume_goes_back",
    "Verif.Engine.resumeEpoch_is_start_epoch"
   ],
   "note": "Proved for all jobs, except that the two progress claims need save_interval = 1 or keep_last_n >= 2; without this they are false of the code: resume_goes_back gives a reachable run in which the cleanup removes the only resumable checkpoint. File writes are atomic (rename), the training of an epoch is a function of epoch, rate, weights and optimizer state."
  },
  {
   "property": "C50",
   "status": "proved",
   "theorems": [
    "Verif.MetaDs.loaded_aligned",
    "Verif.MetaDs.load_succeeds",
    "Verif.MetaDs.ready_after_init"
   ],
   "note": "History invariant over arbitrary sub-datasets; progress for obedient sub-datasets."
  },
  {
   "property": "C51",
   "status": "proved",
   "theorems": [
    "Verif.Concat.windows_spec",
    "Verif.Concat.load_spec",
    "Verif.Concat.inv_init",
    "Verif.Concat.load_past_fails",
    "Verif.Concat.list_fails"
   ],
   "note": "All windows not past the end. load_past_fails: a window past the end is an error. list_fails: an explicit seq_list is an AssertionError (disagreement with the docs). num_seqs of the sub-datasets must be known."
  },
  {
   "property": "C52",
   "status": "partial",
   "theorems": [
    "Verif.DimMath.add_val",
    "Verif.DimMath.radd_val",
    "Verif.DimMath.sub_val",
    "Verif.DimMath.subLeft_val",
    "Verif.DimMath.mul_val",
    "Verif.DimMath.rmul_val",
    "Verif.DimMath.static_add",
    "Verif.DimMath.add_sub_mul_total",
    "Verif.DimMath.div_val_partial",
    "Verif.DimMath.div_noDiv",
    "Verif.DimMath.div_div",
    "Verif.DimMath.product_quot_bug"
   ],
   "note": "Sums, differences, products: full. Quotients: all numerators but products of several factors with a quotient of the same kind as a factor, where the code is wrong (product_quot_bug)."
  },
  {
   "property": "C53",
   "status": "partial",
   "theorems": [
    "Verif.DimMath.dyn_size_partial",
    "Verif.DimMath.sub_left_bug",
    "Verif.DimMath.dim_value_bound_partial",
    "Verif.DimMath.dim_value_attained",
    "Verif.DimMath.dim_value_bug"
   ],
   "note": "Holds when no sum in the expression is negative, and for monotone expressions; witnesses of wrong sizes otherwise."
  },
  {
   "property": "C54",
   "status": "proved",
   "theorems": [
    "Verif.DimMath.conv_same",
    "Verif.DimMath.conv_valid"
   ],
   "note": "For input dims without divisions; the caches do not give dims with divisions for sums."
  },
  {
   "property": "C55",
   "status": "proved",
   "theorems": [
    "Verif.EditDist.editDistance_correct",
    "Verif.EditDist.editDistance1_correct",
    "Verif.EditDist.isDist_unique",
    "Verif.EditDist.isDist_symm",
    "Verif.EditDist.isDist_triangle",
    "Verif.EditDist.isDist_zero"
   ],
   "note": "rf.edit_distance for every batch entry; the reference is the least length of a chain of single edits"
  },
  {
   "property": "C56",
   "status": "proved",
   "theorems": [
    "Verif.EditDist.editDistanceOp_correct"
   ],
   "note": "every permutation of the thread indices per diagonal, arbitrary buffer contents, bounds-checked accesses; integer overflow and races between reads and writes of the same diagonal (there are none: a kernel launch reads two buffers and writes a third) are not modelled"
  },
  {
   "property": "C57",
   "status": "partial",
   "theorems": [
    "Verif.Scan.whileLoop_spec",
    "Verif.Scan.whileLoop_ends",
    "Verif.Scan.scanCond_correct",
    "Verif.Scan.scanCond_state",
    "Verif.Scan.scanCond_state_partial",
    "Verif.Scan.scanCond_state_wrong",
    "Verif.Scan.scanCond_ends",
    "Verif.Scan.scanCond_ends_max",
    "Verif.Scan.scanXs_correct",
    "Verif.Scan.isLen_unique"
   ],
   "note": "all proved except the final state of scan with cond: the code keeps the state before the last iteration when cond gets false (scanCond_state_wrong); right when the loop ends by max_seq_len"
  },
  {
   "property": "C58",
   "status": "partial",
   "theorems": [
    "Verif.Hdf.hdf_roundtrip_partial",
    "Verif.Hdf.openFiles_spec",
    "Verif.Hdf.writeHist_spec",
    "Verif.Hdf.extend_wrong",
    "Verif.Hdf.late_key_error",
    "Verif.Hdf.empty_error"
   ],
   "note": "Full round trip for all files, batches and extensions, provided that whoever extends a file names all its extra keys in extra_type. Without that the code stores wrong lengths (extend_wrong)."
  },
  {
   "property": "C59",
   "status": "partial",
   "theorems": [
    "Verif.Hdf.dump_roundtrip_partial",
    "Verif.Hdf.dump_swapped",
    "Verif.Hdf.dump_end_inclusive"
   ],
   "note": "Round trip when 'data' is the input key or not a key; with 'data' as a target the stored lengths can be for another key (dump_swapped). end_seq is inclusive (dump_end_inclusive)."
  },
  {
   "property": "C60",
   "status": "proved",
   "theorems": [
    "Verif.CtcFsa.ctc_fsa_exact",
    "Verif.CtcFsa.ctc_fsa_total",
    "Verif.CtcFsa.native_fsa_exact"
   ],
   "note": "Python and native; the targets must not contain the blank (not checked by the code). Native: strings are not empty."
  },
  {
   "property": "C61",
   "status": "proved",
   "theorems": [
    "Verif.FastBw.baum_welch_correct",
    "Verif.FastBw.fastBw_sums"
   ],
   "note": "Over any semifield, so without rounding; NaN as an own value. Every order of the threads within a kernel."
  },
  {
   "property": "C62",
   "status": "proved",
   "theorems": [
    "Verif.FastBw.ctc_loss_correct",
    "Verif.FastBw.native_separate",
    "Verif.FastBw.runs_perm"
   ],
   "note": "Exact arithmetic. If no string stands for the labels the reported loss is 0, part of the statement."
  },
  {
   "property": "C63",
   "status": "partial",
   "theorems": [
    "Verif.FastBw.ctc_loss_gradient",
    "Verif.FastBw.ctcLoss_spec",
    "Verif.FastBw.ctc_loss_no_alignment"
   ],
   "note": "Proved whenever some string of the sequence's length stands for the labels. False otherwise: the loss is 0 but the error signal is the softmax (ctc_loss_no_alignment). Real numbers, no rounding."
  },
  {
   "property": "C64",
   "status": "proved",
   "theorems": [
    "Verif.Viterbi.viterbi_correct",
    "Verif.Viterbi.viterbi_deterministic",
    "Verif.Viterbi.viterbi_no_path",
    "Verif.Viterbi.run_best",
    "Verif.Viterbi.run_ends",
    "Verif.Viterbi.exists_finished"
   ],
   "note": "Reads of a cell (8 bytes, in a packed struct) are taken as atomic."
  },
  {
   "property": "C65",
   "status": "proved",
   "theorems": [
    "Verif.Viterbi.ctc_viterbi_correct",
    "Verif.Viterbi.native_states_in_range"
   ],
   "note": "The gradient by TF's cross entropy op is not modelled."
  },
  {
   "property": "C66",
   "status": "partial",
   "theorems": [
    "Verif.DimEq.eqSimple_refl",
    "Verif.DimEq.eqSimple_symm",
    "Verif.DimEq.isEqual_symm",
    "Verif.DimEq.isEqual_mono",
    "Verif.DimEq.isEqual_spec",
    "Verif.DimEq.hash_eqSimple",
    "Verif.DimEq.eqSimple_trans_partial",
    "Verif.DimEq.eqSimple_hash_partial",
    "Verif.DimEq.eqSimple_isEqual_partial",
    "Verif.DimEq.eqSimple_hash_fails",
    "Verif.DimEq.eqSimple_trans_fails",
    "Verif.DimEq.eqSimple_batch_size",
    "Verif.DimEq.derived_matches_fails",
    "Verif.DimEq.isEqual_trans_fails"
   ],
   "note": "Reflexivity, symmetry, monotonicity and the characterization of is_equal hold for all heaps. Transitivity, hash consistency and agreement of == with is_equal hold under the condition Sane (which the code does not enforce) and are refuted without it by concrete heaps."
  },
  {
   "property": "C67",
   "status": "proved",
   "theorems": [
    "Verif.DimEq.decl_ends",
    "Verif.DimEq.decl_same",
    "Verif.DimEq.decl_eq",
    "Verif.DimEq.decl_others",
    "Verif.DimEq.calls_ends",
    "Verif.DimEq.calls_same",
    "Verif.DimEq.decl_hash_changes"
   ],
   "note": "For every outcome of the direction conditions. decl_hash_changes: the hash of a dim changes by the call, so a dict keyed by it before is invalid afterwards."
  },
  {
   "property": "C68",
   "status": "partial",
   "theorems": [
    "Verif.RfSeq.pad_valid",
    "Verif.RfSeq.padInt_valid",
    "Verif.RfSeq.pad_no_value",
    "Verif.RfSeq.pad_not_handled",
    "Verif.RfSeq.slice_from_valid",
    "Verif.RfSeq.slice_range_valid",
    "Verif.RfSeq.slice_size_valid",
    "Verif.RfSeq.slice_neg_neg_valid",
    "Verif.RfSeq.slice_errors",
    "Verif.RfSeq.slice_step_wrong",
    "Verif.RfSeq.slice_neg_end",
    "Verif.RfSeq.slice_neg_start",
    "Verif.RfSeq.shiftRight_valid",
    "Verif.RfSeq.shiftLeft_valid",
    "Verif.RfSeq.shiftRightTensor_wrong",
    "Verif.RfSeq.shiftLeftTensor_example",
    "Verif.RfSeq.reverse_valid_partial",
    "Verif.RfSeq.reverse_empty"
   ],
   "note": "Fails in the code for: padding without value, without handle_dynamic_dims, slice with step or with one negative bound, tensors as pad value, reverse_sequence with an empty sequence; each refuted by a theorem."
  },
  {
   "property": "C69",
   "status": "proved",
   "theorems": [
    "Verif.RfSeq.pack_bt",
    "Verif.RfSeq.pack_tb",
    "Verif.RfSeq.unpack_pack",
    "Verif.RfSeq.maskedSelectTime_valid"
   ],
   "note": "Batch and time axis; further axes are inside the elements."
  },
  {
   "property": "C70",
   "status": "partial",
   "theorems": [
    "Verif.RfSeq.windowInput_valid",
    "Verif.RfSeq.window_same",
    "Verif.RfSeq.window_stride",
    "Verif.RfSeq.window_default_raises",
    "Verif.RfSeq.window_unmasked"
   ],
   "note": "Padding 'same' only; without pad_value the code raises on a dynamic axis, and without handle_dynamic_dims and mask the padding frames are seen."
  },
  {
   "property": "C71",
   "status": "partial",
   "theorems": [
    "Verif.RfSeq.reduceMax_valid_partial",
    "Verif.RfSeq.reduceMin_valid_partial",
    "Verif.RfSeq.reduceMaxAll_valid_partial",
    "Verif.RfSeq.reduceArgmax_valid_partial",
    "Verif.RfSeq.reduceMax_below",
    "Verif.RfSeq.reduceSum_valid",
    "Verif.RfSeq.reduceSumAll_valid",
    "Verif.RfSeq.reduceAll_valid",
    "Verif.RfSeq.reduceAny_valid",
    "Verif.RfSeq.reduceMean_valid",
    "Verif.RfSeq.reduceMeanAll_valid"
   ],
   "note": "max, min, argmax need a valid value not below the mask value (finfo.min); logsumexp is not modelled; exact arithmetic."
  },
  {
   "property": "C72",
   "status": "partial",
   "theorems": [
    "Verif.RfSeq.topK_valid_partial",
    "Verif.RfSeq.topK_short",
    "Verif.RfSeq.splitIdx_valid",
    "Verif.RfSeq.splitIdx_dynamic",
    "Verif.RfSeq.topP_valid"
   ],
   "note": "k at most the length; otherwise padding positions are returned (topK_short)."
  },
  {
   "property": "C73",
   "status": "partial",
   "theorems": [
    "Verif.RfSeq.scatterRow_valid_partial",
    "Verif.RfSeq.scatter_sum_valid",
    "Verif.RfSeq.scatter_max_valid",
    "Verif.RfSeq.scatter_out_of_range",
    "Verif.RfSeq.scatterCounts_wrong",
    "Verif.RfSeq.scatter_max_fill_wrong",
    "Verif.RfSeq.scatterArgmax_valid_partial",
    "Verif.RfSeq.scatterArgmax_padded_wrong"
   ],
   "note": "With a neutral fill value; other fill values, the counts of scatter_logmeanexp and scatter_argmax on padded batches are refuted."
  },
  {
   "property": "C74",
   "status": "proved",
   "theorems": [
    "Verif.Updater.groups_partition",
    "Verif.Updater.groups_rule",
    "Verif.Updater.groups_single",
    "Verif.Updater.groups_errors",
    "Verif.Updater.custom_name_wrong"
   ],
   "note": "no module contains itself; parameter names without dots; param_groups_custom not modelled. The custom check gets the local name as full_param_name (custom_name_wrong), and the blacklist or check without weight_decay raises (groups_errors)."
  },
  {
   "property": "C75",
   "status": "proved",
   "theorems": [
    "Verif.Updater.load_restores",
    "Verif.Updater.load_group",
    "Verif.Updater.load_ok_iff",
    "Verif.Updater.save_load_same",
    "Verif.Updater.load_old_format_wrong"
   ],
   "note": "for files with param_names; older files are loaded by position and can give the state of another parameter (load_old_format_wrong). Device and dtype conversion of tensors not modelled."
  },
  {
   "property": "C76",
   "status": "proved",
   "theorems": [
    "Verif.Updater.train_updates",
    "Verif.Updater.epoch_updates",
    "Verif.Updater.epoch_updates_const",
    "Verif.Updater.lr_multiplier_no_effect"
   ],
   "note": "learning_rate_multiplier of the optimizer options has no effect on any update (lr_multiplier_no_effect)."
  },
  {
   "property": "C77",
   "status": "proved",
   "theorems": [
    "Verif.Updater.train_updates",
    "Verif.Updater.epoch_updates",
    "Verif.Updater.epoch_updates_const",
    "Verif.Updater.updates_const",
    "Verif.Updater.Updates.grads_prefix",
    "Verif.Updater.leftover_lost"
   ],
   "note": "batches after the last update of an epoch are in no update (leftover_lost); one process, no grad scaler."
  },
  {
   "property": "C78",
   "status": "proved",
   "theorems": [
    "Verif.Attention.callStep_ok",
    "Verif.Attention.callSeq_ok",
    "Verif.Attention.attSteps_ok",
    "Verif.Attention.steps_from_init",
    "Verif.Attention.seq_then_steps",
    "Verif.Attention.causal_take",
    "Verif.Attention.callSeq_fails",
    "Verif.Attention.callStep_fails",
    "Verif.Attention.fwd_get",
    "Verif.Attention.initState_of"
   ],
   "note": "exact arithmetic, no dropout; specification is the textbook formula over the frames so far"
  },
  {
   "property": "C79",
   "status": "proved",
   "theorems": [
    "Verif.Attention.callFull_ok",
    "Verif.Attention.relShift_ok",
    "Verif.Attention.makeIndicesSeq_get",
    "Verif.Attention.seqEnergies_get",
    "Verif.Attention.stepEnergies_get",
    "Verif.Attention.rope_relative",
    "Verif.Attention.rope_freq",
    "Verif.Attention.divTerm_two",
    "Verif.Attention.learnedIdx_range",
    "Verif.Attention.learnedIdx_eq"
   ],
   "note": "exact arithmetic; padding values finite; zero division for 2 features"
  },
  {
   "property": "C80",
   "status": "proved",
   "theorems": [
    "Verif.Attention.decStep_ok",
    "Verif.Attention.decSeq_ok",
    "Verif.Attention.decSeqLast_ok",
    "Verif.Attention.decSteps_ok",
    "Verif.Attention.decSteps_init",
    "Verif.Attention.decSeq_then_steps",
    "Verif.Attention.decSpec_take",
    "Verif.Attention.decEncoder_ok",
    "Verif.Attention.no_encoder",
    "Verif.Attention.crossFrame_ok",
    "Verif.Attention.fwdKv_get",
    "Verif.Attention.decInput_eq"
   ],
   "note": "frame-wise parts (layer norm, feed-forward, linear, embedding) are arbitrary functions; output_only_last_frame for non-empty sequences"
  },
  {
   "property": "C81",
   "status": "proved",
   "theorems": [
    "Verif.PyPickle.literal_loads",
    "Verif.PyPickle.literal_eval_iff",
    "Verif.PyPickle.literal_eval_small",
    "Verif.PyPickle.int_wraps",
    "Verif.PyPickle.trailing_ignored"
   ],
   "note": "exact condition for the result to be the Python value; the wrap around of larger integers is a proved disagreement"
  },
  {
   "property": "C82",
   "status": "proved",
   "theorems": [
    "Verif.PyPickle.convert_total",
    "Verif.PyPickle.within_buffer",
    "Verif.PyPickle.accepted_well_formed",
    "Verif.PyPickle.literal_overflow",
    "Verif.PyPickle.floats_overflow",
    "Verif.PyPickle.root_rejected",
    "Verif.PyPickle.leading_point_crash"
   ],
   "note": "for every input; the C++ exception on numbers (process ends) is part of the model and shown by leading_point_crash"
  },
  {
   "property": "C83",
   "status": "partial",
   "theorems": [
    "Verif.BinOp.native_axes",
    "Verif.BinOp.python_axes",
    "Verif.BinOp.native_broadcast_partial",
    "Verif.BinOp.native_scalar",
    "Verif.BinOp.python_broadcast",
    "Verif.BinOp.python_dims",
    "Verif.BinOp.native_dims",
    "Verif.BinOp.native_dim_order",
    "Verif.BinOp.native_python_agree",
    "Verif.BinOp.perm_native_eq_python",
    "Verif.BinOp.match_priority",
    "Verif.BinOp.match_priority_native",
    "Verif.BinOp.copy_compatible",
    "Verif.BinOp.copy_compatible_rejects",
    "Verif.BinOp.native_system_error",
    "Verif.BinOp.native_dims_differ",
    "Verif.BinOp.native_values_differ",
    "Verif.BinOp.native_feature_dim",
    "Verif.BinOp.native_scalar_dim_order"
   ],
   "note": "Proved for all tensors: whenever an operation returns, the result is the broadcast operation (also with equal dims), and without equal dims it always returns (native and Python). Partial because the English claim fails in three corners, each with a witness: the native code raises SystemError for some tensors with equal dims, native and Python pick different axes for equal dims, and a number together with dim_order is a TypeError natively."
  },
  {
   "property": "C84",
   "status": "partial",
   "theorems": [
    "Verif.BinOp.python_rejects",
    "Verif.BinOp.python_allow_iff",
    "Verif.BinOp.native_allow_not_enforced",
    "Verif.BinOp.native_allow_ignored"
   ],
   "note": "Exact for the Python code. The native code, which replaces it, never raises for tensors without equal dims (its check asks whether the operands are subsets of the result, which they always are): negation proved."
  },
  {
   "property": "C85",
   "status": "partial",
   "theorems": [
    "Verif.BinOp.Shortcut.shortcut_partial",
    "Verif.BinOp.Shortcut.shortcut_wrong"
   ],
   "note": "Exact characterisation: the value is right if and only if the case is not one of a ** -1, 0 - b, a or True, True or b, a // 1 and a // -1 with a not an integer; in these the value is wrong (negation with witnesses)."
  },
  {
   "property": "C86",
   "status": "partial",
   "theorems": [
    "Verif.RfMatmul.matmul_named_partial",
    "Verif.RfMatmul.matmul_square",
    "Verif.RfMatmul.dynamic_not_implemented",
    "Verif.RfMatmul.square_first_fails"
   ],
   "note": "proved for tensors in which no dim occurs twice, and for a square second operand; missing: the documented masking for dynamic reduce dims raises NotImplementedError, and a square first operand raises an error"
  },
  {
   "property": "C87",
   "status": "partial",
   "theorems": [
    "Verif.RfGather.gather_named",
    "Verif.RfGather.gather_clipped_static",
    "Verif.RfGather.gather_clipped_dynamic_partial",
    "Verif.RfGather.gather_int",
    "Verif.RfGather.negative_depends_on_dims",
    "Verif.RfGather.clip_empty_sequence_fails"
   ],
   "note": "proved for tensors in which no dim occurs twice; with clip_to_valid only if no sequence is empty (fails otherwise, witness); negative index tensors are accepted or not depending on the dims (witness)"
  },
  {
   "property": "C88",
   "status": "partial",
   "theorems": [
    "Verif.ForwardSplit.collate_keeps",
    "Verif.ForwardSplit.forward_partial",
    "Verif.ForwardSplit.auto_split_never_works",
    "Verif.ForwardSplit.collate_rectangular"
   ],
   "note": "Proved for runs in which no step runs out of memory. With an out-of-memory error the call always raises, also with forward_auto_split_batch_on_oom: auto_split_never_works proves it for all batches."
  },
  {
   "property": "C89",
   "status": "partial",
   "theorems": [
    "Verif.ForwardSplit.split_partial",
    "Verif.ForwardSplit.cut_flatten",
    "Verif.ForwardSplit.makeSplits_spec",
    "Verif.ForwardSplit.makeSplits_two",
    "Verif.ForwardSplit.split_empty_piece",
    "Verif.ForwardSplit.queue_order"
   ],
   "note": "split_partial needs that all entries have the batch axis and that no part is empty. split_empty_piece: the number of parts given by _make_split_seq_from_num_splits can include empty ones, which raise."
  },
  {
   "property": "C90",
   "status": "partial",
   "theorems": [
    "Verif.GradCkpt.recompute_partial",
    "Verif.GradCkpt.unpack_partial",
    "Verif.GradCkpt.all_recorded",
    "Verif.GradCkpt.two_names_wrong",
    "Verif.GradCkpt.own_generator_wrong",
    "Verif.GradCkpt.inplace_outside_wrong",
    "Verif.GradCkpt.changed_outside_wrong"
   ],
   "note": "Proved for scopes whose operations draw only from generators of the devices of their arguments (one name per device) or the CPU one, and do not change tensors from outside in place; the other cases are witnessed as wrong values. In-place changes between saving and the end of the scope give the value at the end."
  },
  {
   "property": "C91",
   "status": "partial",
   "theorems": [
    "Verif.GradCkpt.Hooks.hooks_no_exception_partial",
    "Verif.GradCkpt.Hooks.hooks_entered_partial",
    "Verif.GradCkpt.Hooks.hooks_not_closed_partial",
    "Verif.GradCkpt.Hooks.hooks_restored_partial",
    "Verif.GradCkpt.Hooks.nested_in_block_raises",
    "Verif.GradCkpt.Hooks.nested_checkpoints_raise",
    "Verif.GradCkpt.Hooks.other_thread_raises",
    "Verif.GradCkpt.Hooks.open_block_hidden"
   ],
   "note": "Proved when the first checkpoint scope with live tensors is not inside of another block, and other threads use checkpoint scopes only while this thread has live ones; the other cases are witnessed as exceptions."
  },
  {
   "property": "C92",
   "status": "proved",
   "theorems": [
    "Verif.TrainProc.manager_right",
    "Verif.TrainProc.manager_ends",
    "Verif.TrainProc.manager_reaches_final",
    "Verif.TrainProc.child_is_not_manager",
    "Verif.TrainProc.starts_iff",
    "Verif.TrainProc.beyond_final_starts"
   ],
   "note": "Termination and the bound on the starts are for trainings which do not go beyond the final epoch; with models already beyond it there is one start."
  },
  {
   "property": "C93",
   "status": "partial",
   "theorems": [
    "Verif.Postproc.map_seq_partial",
    "Verif.Postproc.no_early_end",
    "Verif.Postproc.stream_right",
    "Verif.Postproc.fracs_right",
    "Verif.Postproc.seq_list_right",
    "Verif.Postproc.fewer_raises",
    "Verif.Postproc.no_frac_raises",
    "Verif.Postproc.extra_dropped"
   ],
   "note": "map_seq for wrapped datasets which give complete_frac (or functions which drop the entry); otherwise it raises (no_frac_raises). The others hold for all functions."
  },
  {
   "property": "C94",
   "status": "partial",
   "theorems": [
    "Verif.Distrib.training_ends_partial",
    "Verif.Distrib.rows_exist",
    "Verif.Distrib.buffers_deadlock",
    "Verif.Distrib.empty_eval_deadlock",
    "Verif.Distrib.accum_deadlock"
   ],
   "note": "Proved for all schedules, ranks, data and settings, except: DDP with buffers and eval datasets, empty eval datasets, and no_sync with an accumulation which depends on the part of the epoch, for which the deadlock is proved."
  },
  {
   "property": "C95",
   "status": "partial",
   "theorems": [
    "Verif.Distrib.ddp_is_one_process_partial",
    "Verif.Distrib.param_right_partial",
    "Verif.Distrib.param_equal",
    "Verif.Distrib.accum_diverges",
    "Verif.Distrib.param_not_synced"
   ],
   "note": "Proved for all schedules, ranks, models and data under the same exceptions; the averaged parameters are reached only after a multiple of param_sync_step steps (param_not_synced)."
  },
  {
   "property": "C96",
   "status": "proved",
   "theorems": [
    "Verif.ConcatSeqs.collect_right",
    "Verif.ConcatSeqs.collect_tags",
    "Verif.ConcatSeqs.collect_end",
    "Verif.ConcatSeqs.init_ok",
    "Verif.ConcatSeqs.loads_all",
    "Verif.ConcatSeqs.split_join",
    "Verif.ConcatSeqs.split_free",
    "Verif.ConcatSeqs.fullSeqLens_right",
    "Verif.ConcatSeqs.repeat_aligned",
    "Verif.ConcatSeqs.pad_aligned",
    "Verif.ConcatSeqs.pad_misaligned"
   ],
   "note": "The alignment with pad_narrow_data_to_multiple_of_target_len is claimed for targets which are not changed themselves (pad_misaligned shows this is needed)."
  },
  {
   "property": "C97",
   "status": "partial",
   "theorems": [
    "Verif.RfConv.conv_batch_partial",
    "Verif.RfConv.conv_same_seq_partial",
    "Verif.RfConv.conv_valid_any",
    "Verif.RfConv.outLen_right",
    "Verif.RfConv.pool_batch_partial",
    "Verif.RfConv.pool_valid_any",
    "Verif.RfConv.convAgg_ignores",
    "Verif.RfConv.maxAgg_ignores",
    "Verif.RfConv.unmasked_depends",
    "Verif.RfConv.strided_depends",
    "Verif.RfConv.strided_crops",
    "Verif.RfConv.dilated_same_short",
    "Verif.RfConv.valid_short_raises",
    "Verif.RfConv.avg_depends",
    "Verif.RfConv.avg_even_counts",
    "Verif.RfConv.pool_even_raises",
    "Verif.RfConv.pool_stride_raises"
   ],
   "note": "Proved for masked input, consistent padding, and outside the cases named in DESIGN.md, where the code does not have the property (witnesses proved). Missing: more spatial axes at once, transposed convolution."
  },
  {
   "property": "C98",
   "status": "partial",
   "theorems": [
    "Verif.LoadModel.load_value",
    "Verif.LoadModel.load_accounted",
    "Verif.LoadModel.load_ignored",
    "Verif.LoadModel.load_ok",
    "Verif.LoadModel.resume_partial",
    "Verif.LoadModel.prepared_plain",
    "Verif.LoadModel.mapping_right",
    "Verif.LoadModel.resume_changes",
    "Verif.LoadModel.random_order",
    "Verif.LoadModel.recog_random",
    "Verif.LoadModel.always_buffer_raises",
    "Verif.LoadModel.mapping_swap"
   ],
   "note": "Resuming is proved for configs where no other entry has priority over an always entry (witness for the other case proved); renaming for mappings where no name is both old and new."
  },
  {
   "property": "C99",
   "status": "partial",
   "theorems": [
    "Verif.StepDims.read_right_partial",
    "Verif.StepDims.derive_right_partial",
    "Verif.StepDims.derive_static",
    "Verif.StepDims.static_kept",
    "Verif.StepDims.start_checked",
    "Verif.StepDims.len_unique",
    "Verif.StepDims.cached_stale",
    "Verif.StepDims.held_stale",
    "Verif.StepDims.lengths_unchecked",
    "Verif.StepDims.missing_len",
    "Verif.StepDims.missing_key",
    "Verif.StepDims.wrong_static"
   ],
   "note": "Proved for dims of the current step (static, given by the batch, created in the step, derived in the step with a first operand of the step). Violated for a static first operand and for dims kept over steps (witnesses)."
  },
  {
   "property": "C100",
   "status": "partial",
   "theorems": [
    "Verif.ModTree.modules_once",
    "Verif.ModTree.parameters_once",
    "Verif.ModTree.names_distinct",
    "Verif.ModTree.own_parameters",
    "Verif.ModTree.children_right",
    "Verif.ModTree.apply_right",
    "Verif.ModTree.apply_once",
    "Verif.ModTree.pt_right",
    "Verif.ModTree.pt_has_names",
    "Verif.ModTree.pt_same_names",
    "Verif.ModTree.pt_parameters_once",
    "Verif.ModTree.set_get_partial",
    "Verif.ModTree.set_long_raises",
    "Verif.ModTree.names_differ",
    "Verif.ModTree.cyclic_params",
    "Verif.ModTree.cyclic_pt",
    "Verif.ModTree.cyclic_apply",
    "Verif.ModTree.shared_apply"
   ],
   "note": "Everything proved except set_deep for names with two or more dots (violated), and conversion and apply for cyclic modules (violated)."
  },
  {
   "property": "C101",
   "status": "partial",
   "theorems": [
    "Verif.Norm.moments_right",
    "Verif.Norm.bn_masked",
    "Verif.Norm.bn_unmasked",
    "Verif.Norm.bn_eval",
    "Verif.Norm.bn_eval_alone",
    "Verif.Norm.bn_padding",
    "Verif.Norm.bn_history",
    "Verif.Norm.ema_bounds",
    "Verif.Norm.bn_empty",
    "Verif.Norm.channel_right",
    "Verif.Norm.layerNorm_right",
    "Verif.Norm.layerNorm_moments",
    "Verif.Norm.rmsNorm_right",
    "Verif.Norm.groupNorm_right",
    "Verif.Norm.groupNorm_raises",
    "Verif.Norm.normalize_right",
    "Verif.Norm.running_var_differs",
    "Verif.Norm.moments_mixed",
    "Verif.Norm.one_frame"
   ],
   "note": "The documented update of the running variance holds on the masked path only (running_var_differs); moments with use_mask=False on padded input is mixed (moments_mixed)."
  },
  {
   "property": "C102",
   "status": "partial",
   "theorems": [
    "Verif.Norm.smooth_sum",
    "Verif.Norm.smooth_values",
    "Verif.Norm.sparse_dense",
    "Verif.Norm.sparse_values",
    "Verif.Norm.smooth_dist",
    "Verif.Norm.grad_right",
    "Verif.Norm.grad_zero",
    "Verif.Norm.grad_exclude",
    "Verif.Norm.exclude_sum_partial",
    "Verif.Norm.first_axis",
    "Verif.Norm.exclude_sum",
    "Verif.Norm.exclude_twice",
    "Verif.Norm.exclude_axis",
    "Verif.Norm.single_label"
   ],
   "note": "The sum over the labels which are not excluded stays only if the excluded ones have no probability (exclude_sum); exclude_labels with the label axis not last is wrong (exclude_axis)."
  },
  {
   "property": "C103",
   "status": "partial",
   "theorems": [
    "Verif.Lstm.lstm_right",
    "Verif.Lstm.exists_sort",
    "Verif.Lstm.step_right",
    "Verif.Lstm.steps_right",
    "Verif.Lstm.lstm_chunks",
    "Verif.Lstm.lstm_empty",
    "Verif.Lstm.torchCell_right",
    "Verif.Lstm.innerStep_right",
    "Verif.Lstm.zoneout_is_lstm",
    "Verif.Lstm.zoneout_eval",
    "Verif.Lstm.zoneout_train",
    "Verif.Lstm.zoneout_one",
    "Verif.Lstm.innerStep_total",
    "Verif.Lstm.zoneoutCall_right",
    "Verif.Lstm.zoneoutCall_is_lstm",
    "Verif.Lstm.empty_differs"
   ],
   "note": "Partial: sequences have to be nonempty for rf.LSTM (empty_differs); exact numbers; torch's kernel as documented."
  },
  {
   "property": "C104",
   "status": "partial",
   "theorems": [
    "Verif.ConfigPy.cmdline_wins",
    "Verif.ConfigPy.extra_wins",
    "Verif.ConfigPy.file_wins",
    "Verif.ConfigPy.default_stays",
    "Verif.ConfigPy.items_file",
    "Verif.ConfigPy.py_file",
    "Verif.ConfigPy.line_right",
    "Verif.ConfigPy.option_loses",
    "Verif.ConfigPy.quotes_twice",
    "Verif.ConfigPy.false_raises",
    "Verif.ConfigPy.cmdValue_meant"
   ],
   "note": "Partial: holds for ++key value; options like -b lose against --config (option_loses), and what Python makes of the value depends on the type before (quotes_twice, false_raises). extra_wins etc. for command lines without --config and include."
  },
  {
   "property": "C105",
   "status": "partial",
   "theorems": [
    "Verif.ConfigPy.read_missing",
    "Verif.ConfigPy.float_missing",
    "Verif.ConfigPy.int_same",
    "Verif.ConfigPy.int_list_same",
    "Verif.ConfigPy.bool_same",
    "Verif.ConfigPy.float_same",
    "Verif.ConfigPy.none_differs",
    "Verif.ConfigPy.str_is_true",
    "Verif.ConfigPy.index_differs",
    "Verif.ConfigPy.copy_typed",
    "Verif.ConfigPy.copy_loses",
    "Verif.ConfigPy.ctx_restores",
    "Verif.ConfigPy.ctx_leaks",
    "Verif.ConfigPy.text_raises"
   ],
   "note": "Partial: the exceptions none_differs, str_is_true, index_differs, copy_loses and ctx_leaks are proved."
  },
  {
   "property": "C106",
   "status": "partial",
   "theorems": [
    "Verif.Augment.randomMask_right",
    "Verif.Augment.masked_le",
    "Verif.Augment.masked_ge",
    "Verif.Augment.specaugment_right",
    "Verif.Augment.specaugment_eval",
    "Verif.Augment.specaugment_start",
    "Verif.Augment.default_fits",
    "Verif.Augment.small_raises",
    "Verif.Augment.short_all",
    "Verif.Augment.sortTopk_ok"
   ],
   "note": "Proved for one batch dim, sorted steps and both branches active. With an explicit number of features in a block and fewer than 5 features it may raise (small_raises)."
  },
  {
   "property": "C107",
   "status": "partial",
   "theorems": [
    "Verif.Augment.noise_right",
    "Verif.Augment.dropout_train",
    "Verif.Augment.dropout_eval",
    "Verif.Augment.dropout_range",
    "Verif.Augment.dropout_mean"
   ],
   "note": "Over rationals; float rounding of the noise and the scale is not modelled."
  },
  {
   "property": "C108",
   "status": "partial",
   "theorems": [
    "Verif.RfShape.merge_right",
    "Verif.RfShape.split_dims_right",
    "Verif.RfShape.split_merge",
    "Verif.RfShape.merge_size",
    "Verif.RfShape.reshape_right",
    "Verif.RfShape.rank_inj",
    "Verif.RfShape.rank_surj",
    "Verif.RfShape.rank_lt",
    "Verif.RfShape.merge_any",
    "Verif.RfShape.merged_cap",
    "Verif.RfShape.merged_exact",
    "Verif.RfShape.merged_all",
    "Verif.RfShape.merged_keeps",
    "Verif.RfShape.merged_forgets",
    "Verif.RfShape.product_wrong"
   ],
   "note": "proved for distinct dims and the torch backend; partial: lengths disappear after a dim of size 1 (merged_forgets), and the sizes are a model of dim math with one batch dim"
  },
  {
   "property": "C109",
   "status": "partial",
   "theorems": [
    "Verif.RfShape.split_right",
    "Verif.RfShape.split_size",
    "Verif.RfShape.concat_right",
    "Verif.RfShape.concat_lacks",
    "Verif.RfShape.concat_dynamic",
    "Verif.RfShape.concat_split",
    "Verif.RfShape.stack_right",
    "Verif.RfShape.stack_raises",
    "Verif.RfShape.squeeze_right",
    "Verif.RfShape.squeeze_raises",
    "Verif.RfShape.expand_right",
    "Verif.RfShape.expand_raises",
    "Verif.RfShape.replace_right"
   ],
   "note": "proved for distinct dims and static sizes; partial: replace_dim and stack do not check the size of the given dim (shown in replace_right and stack_right), and the lengths of a concatenation over a dynamic dim are not modelled"
  },
  {
   "property": "C110",
   "status": "partial",
   "theorems": [
    "Verif.RfLoss.reduce_sum_valid",
    "Verif.RfLoss.reduce_sum_padding",
    "Verif.RfLoss.reduce_sum_missing",
    "Verif.RfLoss.count_valid_partial",
    "Verif.RfLoss.reduce_mean_valid_partial",
    "Verif.RfLoss.count_chain"
   ],
   "note": "Counts and means need the dims of sizes to be direct (Direct); chains of sizes raise (count_chain)."
  },
  {
   "property": "C111",
   "status": "partial",
   "theorems": [
    "Verif.RfLoss.loss_stats",
    "Verif.RfLoss.total_loss_right",
    "Verif.RfLoss.total_loss_none",
    "Verif.RfLoss.mark_loss_right",
    "Verif.RfLoss.step_frames",
    "Verif.RfLoss.step_seqs",
    "Verif.RfLoss.epoch_mean_partial",
    "Verif.RfLoss.epoch_any_batching",
    "Verif.RfLoss.epoch_empty_batch",
    "Verif.RfLoss.epoch_no_step"
   ],
   "note": "Each batch must have a frame, otherwise the epoch raises (epoch_empty_batch). One loss name per epoch."
  },
  {
   "property": "C112",
   "status": "partial",
   "theorems": [
    "Verif.SprintData.results_right",
    "Verif.SprintData.adder_ok",
    "Verif.SprintData.no_deadlock",
    "Verif.SprintData.at_rest",
    "Verif.SprintData.buffer_bounded",
    "Verif.SprintData.steps_bounded",
    "Verif.SprintData.reset_fresh",
    "Verif.SprintData.epoch_gate",
    "Verif.SprintData.epoch_wakes",
    "Verif.SprintData.stale_epoch",
    "Verif.SprintData.stale_assertion",
    "Verif.SprintData.lost_request_deadlock"
   ],
   "note": "Proved within an epoch, from the reset of the buffer on, and for the wait between epochs. Across epochs refuted: stale_epoch, stale_assertion, lost_request_deadlock."
  },
  {
   "property": "C113",
   "status": "partial",
   "theorems": [
    "Verif.HdfCache.cache_correct_partial",
    "Verif.HdfCache.thread_no_error_partial",
    "Verif.HdfCache.calls_no_error_partial",
    "Verif.HdfCache.wait_ends_partial",
    "Verif.HdfCache.thread_ends",
    "Verif.HdfCache.no_wait_after_thread",
    "Verif.HdfCache.race_wrong_data",
    "Verif.HdfCache.other_seqs_keyError",
    "Verif.HdfCache.short_epoch_fails",
    "Verif.HdfCache.changed_order_false"
   ],
   "note": "Proved for all runs in which the reader starts an epoch or a load_seqs only when no loading thread is running and all epochs are permutations of the same sequences. Without these conditions the claim is false of the code (race_wrong_data, other_seqs_keyError, short_epoch_fails)."
  },
  {
   "property": "C114",
   "status": "partial",
   "theorems": [
    "Verif.HdfCache.start_cache_limit",
    "Verif.HdfCache.insert_alloc",
    "Verif.HdfCache.remove_alloc",
    "Verif.HdfCache.remove_all_indexError",
    "Verif.HdfCache.load_accounts_partial",
    "Verif.HdfCache.limit_not_kept"
   ],
   "note": "Start cache limit and interval algebra hold in full (with one refuted corner case of remove_alloc_interval). The budget of free frames is not kept by the code: exact account proved, violation shown by a run."
  },
  {
   "property": "C115",
   "status": "partial",
   "theorems": [
    "Verif.RfScatter.scatter_sum",
    "Verif.RfScatter.scatter_bounds",
    "Verif.RfScatter.scatter_gather",
    "Verif.RfScatter.scatter_sum_fill_partial",
    "Verif.RfScatter.sum_fill_padding",
    "Verif.RfScatter.scatter_max_partial",
    "Verif.RfScatter.scatter_min_partial",
    "Verif.RfScatter.max_fill_padding",
    "Verif.RfScatter.scatter_argmax_partial",
    "Verif.RfScatter.argmax_padding",
    "Verif.RfScatter.scatter_logsumexp",
    "Verif.RfScatter.logmeanexp_counts",
    "Verif.RfScatter.scatter_logmeanexp_partial",
    "Verif.RfScatter.logmeanexp_padding",
    "Verif.RfScatter.top_k_mask",
    "Verif.RfScatter.top_p_mask",
    "Verif.RfScatter.top_p_mask_one_more"
   ],
   "note": "Sum, log-sum-exp and max/min without fill value hold for all inputs. Argmax, log-mean-exp and explicit fill values only when no padding points to the out index; otherwise the code is wrong, shown by theorems."
  },
  {
   "property": "C116",
   "status": "proved",
   "theorems": [
    "Verif.SprintCache.round_trip",
    "Verif.SprintCache.add_length_mismatch",
    "Verif.SprintCache.unfinalized",
    "Verif.SprintCache.scan_misses_first"
   ],
   "note": "for all sequences of adds that the writer accepts; scan_misses_first documents the defect of the scan, which is not part of the claim"
  },
  {
   "property": "C117",
   "status": "partial",
   "theorems": [
    "Verif.SprintCache.packed_round_trip",
    "Verif.SprintCache.rle_round_trip",
    "Verif.SprintCache.weighted_round_trip_partial",
    "Verif.SprintCache.items_of_time_frame",
    "Verif.SprintCache.weighted_time_wrong",
    "Verif.SprintCache.get_state_partial",
    "Verif.SprintCache.get_state_seventh",
    "Verif.SprintCache.get_state_many",
    "Verif.SprintCache.tying_lookup",
    "Verif.SprintCache.allophones_same_partial",
    "Verif.SprintCache.allophones_differ",
    "Verif.SprintCache.short_name",
    "Verif.SprintCache.short_ambiguous",
    "Verif.SprintCache.bundle_find",
    "Verif.SprintCache.bundle_short_ambiguous"
   ],
   "note": "weighted alignments only without explicit times, states below six, allophone files without empty lines: otherwise the code is wrong, with witnesses"
  },
  {
   "property": "C118",
   "status": "partial",
   "theorems": [
    "Verif.LmData.texts_exact",
    "Verif.LmData.texts_partial",
    "Verif.LmData.lines_exist",
    "Verif.LmData.last_line_lost",
    "Verif.LmData.blank_line_kept",
    "Verif.LmData.empty_file_fails"
   ],
   "note": "Full for files whose last line ends with a newline and blank lines which are really empty; the code violates the statement otherwise, with witnesses."
  },
  {
   "property": "C119",
   "status": "partial",
   "theorems": [
    "Verif.LmData.isSpace_iff",
    "Verif.LmData.parse_chars_lossless",
    "Verif.LmData.parse_chars",
    "Verif.LmData.parse_special",
    "Verif.LmData.parse_words_partial",
    "Verif.LmData.collapse_collapsed",
    "Verif.LmData.unknown_replaced_partial",
    "Verif.LmData.unknown_not_known",
    "Verif.LmData.replace_depends_on_history",
    "Verif.LmData.ids_ok",
    "Verif.LmData.delayed_partial",
    "Verif.LmData.dtype_fits",
    "Verif.LmData.dtype_gap",
    "Verif.LmData.collect_all",
    "Verif.LmData.skipped_missing",
    "Verif.LmData.invalid_error"
   ],
   "note": "Words only for text without brackets; history independence for a known unknown symbol and replacements which are not replaced again; the number of sequences is wrong with skipped lines (witness)."
  },
  {
   "property": "C120",
   "status": "partial",
   "theorems": [
    "Verif.Allo.index_injective",
    "Verif.Allo.index_bound",
    "Verif.Allo.index_defined",
    "Verif.Allo.from_index_reversed",
    "Verif.Allo.from_index_inverse_partial",
    "Verif.Allo.from_index_wrong",
    "Verif.Allo.classic_exact",
    "Verif.Allo.future_exact",
    "Verif.Allo.history_stored",
    "Verif.Allo.history_partial",
    "Verif.Allo.history_wrong",
    "Verif.Allo.no_context",
    "Verif.Allo.generate_states",
    "Verif.Allo.generate_index_ok",
    "Verif.Allo.tying_accepted",
    "Verif.Allo.tying_lookup",
    "Verif.Allo.marks"
   ],
   "note": "Decoding is right only without context (witness otherwise), the left neighbour only for a context of one phone (witness otherwise); the rest is proved in full."
  },
  {
   "property": "C121",
   "status": "partial",
   "theorems": [
    "Verif.TransData.thread_outcome",
    "Verif.TransData.get_right",
    "Verif.TransData.get_eventually",
    "Verif.TransData.behind_end_partial",
    "Verif.TransData.behind_end_waits",
    "Verif.TransData.collect_right",
    "Verif.TransData.collect_eventually",
    "Verif.TransData.order_from_tags",
    "Verif.TransData.order_given",
    "Verif.TransData.seq_list_file_fails",
    "Verif.TransData.all_tags_partial",
    "Verif.TransData.all_tags_missing",
    "Verif.TransData.labels_exact",
    "Verif.TransData.words_exact",
    "Verif.TransData.unknown_label_missing",
    "Verif.TransData.data_dim_wrong"
   ],
   "note": "The number just behind the last line is no error: waits for ever (behind_end_waits). seq_list_file, get_all_tags while loading, and get_data_dim for the targets are shown to be wrong."
  },
  {
   "property": "C122",
   "status": "partial",
   "theorems": [
    "Verif.Hooks.history_ok",
    "Verif.Hooks.method_right",
    "Verif.Hooks.call_right_partial",
    "Verif.Hooks.call_broken",
    "Verif.Hooks.register_keep",
    "Verif.Hooks.register_replace",
    "Verif.Hooks.register_ok_iff",
    "Verif.Hooks.set_then_get",
    "Verif.Hooks.set_without_assign",
    "Verif.Hooks.remove_restores",
    "Verif.Hooks.remove_replaced",
    "Verif.Hooks.wf_kept",
    "Verif.Hooks.is_parametrized_partial",
    "Verif.Hooks.failed_register_stays",
    "Verif.Hooks.method_is_parametrized"
   ],
   "note": "Calling objects: wrong when two objects of one class have hooks on __call__ (call_broken). is_parametrized is wrong after a failed register and for names which the class has."
  },
  {
   "property": "C123",
   "status": "partial",
   "theorems": [
    "Verif.OggZip.name_zip",
    "Verif.OggZip.name_txt",
    "Verif.OggZip.paths_right",
    "Verif.OggZip.other_extension",
    "Verif.OggZip.load_segments_partial",
    "Verif.OggZip.load_all",
    "Verif.OggZip.empty_segments_all",
    "Verif.OggZip.load_ok_iff",
    "Verif.OggZip.subset_num",
    "Verif.OggZip.subset_frac_partial",
    "Verif.OggZip.subset_ends",
    "Verif.OggZip.collect_right",
    "Verif.OggZip.corpus_right",
    "Verif.OggZip.tags_right",
    "Verif.OggZip.seq_list_right",
    "Verif.OggZip.order_right",
    "Verif.OggZip.finished",
    "Verif.OggZip.nothing_asked"
   ],
   "note": "An empty segment list filters nothing; fractions of one or giving zero entries are an error."
  },
  {
   "property": "C124",
   "status": "partial",
   "theorems": [
    "Verif.RfPcw.interp_partial",
    "Verif.RfPcw.at_points",
    "Verif.RfPcw.bounded",
    "Verif.RfPcw.order_irrelevant",
    "Verif.RfPcw.no_points",
    "Verif.RfPcw.one_point",
    "Verif.RfPcw.scheduler"
   ],
   "note": "With one point the result at its key is not a number; everything else is proved for two or more points."
  },
  {
   "property": "C125",
   "status": "partial",
   "theorems": [
    "Verif.FrontCache.transparent_partial",
    "Verif.FrontCache.size_limit",
    "Verif.FrontCache.no_dead_key",
    "Verif.FrontCache.sinusoidal_partial",
    "Verif.FrontCache.single_step_wrong",
    "Verif.FrontCache.repeated_dim_wrong",
    "Verif.FrontCache.dead_dim_error",
    "Verif.FrontCache.unknown_dim_error",
    "Verif.FrontCache.second_call"
   ],
   "note": "For functions which only use known sizes and keys with the same repetitions; the single step dim and repeated dims are counterexamples of the code."
  },
  {
   "property": "C126",
   "status": "partial",
   "theorems": [
    "Verif.TensorDict.raw_dict",
    "Verif.TensorDict.raw_dict_ok",
    "Verif.TensorDict.round_trip",
    "Verif.TensorDict.sizes_once",
    "Verif.TensorDict.all_dims",
    "Verif.TensorDict.update_last",
    "Verif.TensorDict.reset_all",
    "Verif.TensorDict.names_clash"
   ],
   "note": "Proved for names which are not names of sizes, and scalar sizes of batch dims; types of values, and derived dims of reset_raw, are not modelled."
  },
  {
   "property": "C127",
   "status": "partial",
   "theorems": [
    "Verif.EpochFrac.frac_known",
    "Verif.EpochFrac.frac_guess",
    "Verif.EpochFrac.pipe_known",
    "Verif.EpochFrac.pipe_unknown",
    "Verif.EpochFrac.pipe_own",
    "Verif.EpochFrac.train_progress",
    "Verif.EpochFrac.remaining_time",
    "Verif.EpochFrac.train_unknown",
    "Verif.EpochFrac.user_function",
    "Verif.EpochFrac.user_function_index",
    "Verif.EpochFrac.multi_proc",
    "Verif.EpochFrac.no_estimate_error",
    "Verif.EpochFrac.small_estimate_error",
    "Verif.EpochFrac.lr_unknown",
    "Verif.EpochFrac.train_unknown_error",
    "Verif.EpochFrac.zero_frac",
    "Verif.EpochFrac.gap_not_checked",
    "Verif.EpochFrac.multi_proc_unknown_error"
   ],
   "note": "Proved for real numbers. For an unknown number of sequences the claim holds only without printing: train_unknown_error shows the failure; the other errors are shown by the theorems with suffix _error."
  },
  {
   "property": "C128",
   "status": "partial",
   "theorems": [
    "Verif.TextDict.beam_features",
    "Verif.TextDict.beam_ok",
    "Verif.TextDict.single_features",
    "Verif.TextDict.empty_beam_error",
    "Verif.TextDict.init_order",
    "Verif.TextDict.collect_loaded",
    "Verif.TextDict.epoch_each_once",
    "Verif.TextDict.order_first_error",
    "Verif.TextDict.all_tags",
    "Verif.TextDict.load_ok"
   ],
   "note": "The full claim about epochs fails when an order is given before loading (order_first_error). Vocabulary, epoch orders and the parser of the file are parameters."
  },
  {
   "property": "C129",
   "status": "partial",
   "theorems": [
    "Verif.NestedSel.select_meaning",
    "Verif.NestedSel.scatter_meaning",
    "Verif.NestedSel.round_trip",
    "Verif.NestedSel.dim_missing",
    "Verif.NestedSel.other_backup_dim"
   ],
   "note": "Holds for all states in which each dynamic sequence dim is a leaf (dim_missing shows why). Tensors with several dynamic sequence dims, mask_nested and gather_nested are not modelled."
  },
  {
   "property": "C130",
   "status": "partial",
   "theorems": [
    "Verif.NestedSel.gather_meaning"
   ],
   "note": "For states in which each dynamic sequence dim is a leaf. Sizes which depend on the batch but not on the beam, and indices out of range, are not modelled."
  },
  {
   "property": "C131",
   "status": "partial",
   "theorems": [
    "Verif.MapDs.by_tags",
    "Verif.MapDs.given_order",
    "Verif.MapDs.own_order",
    "Verif.MapDs.option_order",
    "Verif.MapDs.reading",
    "Verif.MapDs.tags_read",
    "Verif.MapDs.all_tags",
    "Verif.MapDs.sorting_known",
    "Verif.MapDs.list_entries",
    "Verif.MapDs.list_sorting_error"
   ],
   "note": "The claim about sorting fails for FromListDataset (list_sorting_error). get_seq_order_for_epoch is a parameter (C01)."
  },
  {
   "property": "C132",
   "status": "partial",
   "theorems": [
    "Verif.RunMean.history_mean",
    "Verif.RunMean.eval_unchanged",
    "Verif.RunMean.alpha_ends",
    "Verif.RunMean.stays_between",
    "Verif.RunMean.stays_distribution",
    "Verif.RunMean.start",
    "Verif.RunMean.documented_use_fails"
   ],
   "note": "history_mean: the value after any history, in closed form, for inputs whose dims are all dims of the mean. The full statement (inputs [B,T,F] reduced to [F]) is false of the code: documented_use_fails proves that every updating call with a further dim raises AssertionError. Exact arithmetic; eager train flag."
  },
  {
   "property": "C133",
   "status": "partial",
   "theorems": [
    "Verif.Lion.step_rule",
    "Verif.Lion.untouched",
    "Verif.Lion.history_rule",
    "Verif.Lion.inputs_exist",
    "Verif.Lion.rule_unique",
    "Verif.Lion.moves_at_most",
    "Verif.Lion.stays_bounded",
    "Verif.Lion.training_bounded",
    "Verif.Lion.scale_free",
    "Verif.Lion.decoupled_decay"
   ],
   "note": "history_rule: every training is a run of the Lion rule per number; bounds for all gradients. Exact arithmetic; the Triton kernel for CUDA is not modelled, so partial."
  },
  {
   "property": "C134",
   "status": "partial",
   "theorems": [
    "Verif.Dropout.each_cell",
    "Verif.Dropout.shared_mask",
    "Verif.Dropout.unchanged",
    "Verif.Dropout.refused",
    "Verif.Dropout.expectation"
   ],
   "note": "Exact arithmetic, float probability and eager train flag (tensor-valued probabilities and graph mode are not modelled). expectation is an integral over the uniform random number."
  },
  {
   "property": "C135",
   "status": "partial",
   "theorems": [
    "Verif.TensorArr.push_order",
    "Verif.TensorArr.push_checked",
    "Verif.TensorArr.stack_meaning",
    "Verif.TensorArr.stack_empty",
    "Verif.TensorArr.read",
    "Verif.TensorArr.read_error",
    "Verif.TensorArr.unstack_meaning",
    "Verif.TensorArr.unstack_refused",
    "Verif.TensorArr.round_trip",
    "Verif.TensorArr.build_and_stack",
    "Verif.TensorArr.old_array_changes"
   ],
   "note": "All but the last sentence of the statement is proved for the eager torch lists; the last sentence is false of the code: old_array_changes proves that the old array changes too. Graph mode and the delayed check of loops are not covered."
  },
  {
   "property": "C136",
   "status": "partial",
   "theorems": [
    "Verif.Bleu.counts",
    "Verif.Bleu.score_range",
    "Verif.Bleu.perfect",
    "Verif.Bleu.order_irrelevant",
    "Verif.Bleu.standard_bleu",
    "Verif.Bleu.result_or_error",
    "Verif.Bleu.short_translation_perfect"
   ],
   "note": "Real arithmetic instead of floats (the final float32 rounding is left out), so partial."
  },
  {
   "property": "C137",
   "status": "partial",
   "theorems": [
    "Verif.PackDims.mask_meaning",
    "Verif.PackDims.accepted_iff",
    "Verif.PackDims.batch_time",
    "Verif.PackDims.unpadded_refused",
    "Verif.PackDims.static_between_refused"
   ],
   "note": "mask_meaning and accepted_iff characterise mask and accepted dims exactly. The statement for all dims is false of the code: unpadded_refused and static_between_refused. Values of the packing are in C69."
  },
  {
   "property": "C138",
   "status": "partial",
   "theorems": [
    "Verif.CtxJournal.parent_iff",
    "Verif.CtxJournal.parent_order",
    "Verif.CtxJournal.stack_meaning",
    "Verif.CtxJournal.parent_dims",
    "Verif.CtxJournal.with_restores",
    "Verif.CtxJournal.with_reads",
    "Verif.CtxJournal.next_entry",
    "Verif.CtxJournal.playback",
    "Verif.CtxJournal.append_last",
    "Verif.CtxJournal.reader_accessible",
    "Verif.CtxJournal.reader_found",
    "Verif.CtxJournal.flatten_all"
   ],
   "note": "Not modelled: the walk over the consumers in the graph (its order is given), the backends which record and read, and the random numbers."
  },
  {
   "property": "C139",
   "status": "proved",
   "theorems": [
    "Verif.OptRead.all_read_iff",
    "Verif.OptRead.reads",
    "Verif.OptRead.truth_value"
   ],
   "note": "Dicts are not modified while they are iterated over."
  },
  {
   "property": "C140",
   "status": "partial",
   "theorems": [
    "Verif.StepSeed.seed_injective",
    "Verif.StepSeed.seed_range",
    "Verif.StepSeed.set_forgets",
    "Verif.StepSeed.static_same_each_step",
    "Verif.StepSeed.call_seeds",
    "Verif.StepSeed.choice_top",
    "Verif.StepSeed.no_noise",
    "Verif.StepSeed.first_is_best",
    "Verif.StepSeed.score_lt_iff",
    "Verif.StepSeed.sample_probability"
   ],
   "note": "Not modelled: the backend generators, floats (where the uniform number can be 0), several axes at once, and the joint probability of more than one sample."
  },
  {
   "property": "C141",
   "status": "partial",
   "theorems": [
    "Verif.NpDump.last_file_dropped",
    "Verif.NpDump.given_end",
    "Verif.NpDump.load_overlapping",
    "Verif.NpDump.first_load",
    "Verif.NpDump.next_batch_fails",
    "Verif.NpDump.going_back_fails",
    "Verif.NpDump.length_of"
   ],
   "note": "The property fails in the code as its statement says (last_file_dropped, next_batch_fails). Not modelled: parsing of the text files, shuffling of frames, and the frame counts."
  },
  {
   "property": "C142",
   "status": "partial",
   "theorems": [
    "Verif.StereoPart.partitions_tile",
    "Verif.StereoPart.partition_sizes",
    "Verif.StereoPart.epoch_partition",
    "Verif.StereoPart.collect_ok",
    "Verif.StereoPart.epoch_count",
    "Verif.StereoPart.rest_dropped",
    "Verif.StereoPart.epoch_reads",
    "Verif.StereoPart.sequence_numbers",
    "Verif.StereoPart.no_such_sequence"
   ],
   "note": "The property fails in the code as its statement says (rest_dropped). Not modelled: content, normalization, and the HDF files."
  },
  {
   "property": "C143",
   "status": "partial",
   "theorems": [
    "Verif.WavFrames.frames_content",
    "Verif.WavFrames.no_sample_lost",
    "Verif.WavFrames.short_signal_lost",
    "Verif.WavFrames.zero_shift"
   ],
   "note": "The property fails in the code as its statement says (short_signal_lost). Not modelled: the HDF buffer, reading of wave files, rounding of the division."
  },
  {
   "property": "C144",
   "status": "proved",
   "theorems": [
    "Verif.TaskGen.task_12ax",
    "Verif.TaskGen.task_copy",
    "Verif.TaskGen.task_copy_generated",
    "Verif.TaskGen.task_convert",
    "Verif.TaskGen.task_xml",
    "Verif.TaskGen.want_predicts"
   ],
   "note": "For given random inputs."
  },
  {
   "property": "C145",
   "status": "proved",
   "theorems": [
    "Verif.Staircase.accepted_iff",
    "Verif.Staircase.edges_in_place",
    "Verif.Staircase.edges_nodup",
    "Verif.Staircase.unambiguous",
    "Verif.Staircase.words_without_loop",
    "Verif.Staircase.words_with_loop",
    "Verif.Staircase.words_with_loop_and_limits"
   ],
   "note": ""
  },
  {
   "property": "C146",
   "status": "proved",
   "theorems": [
    "Verif.PPrint.pformat_expr",
    "Verif.PPrint.layout_only",
    "Verif.PPrint.simple_one_line"
   ],
   "note": "For an arbitrary score; that the tokens of leaves are no brackets is only assumed for the position of new lines."
  },
  {
   "property": "C147",
   "status": "partial",
   "theorems": [
    "Verif.NativeComp.returned_up_to_date",
    "Verif.NativeComp.default_up_to_date",
    "Verif.NativeComp.can_return",
    "Verif.NativeComp.abi_ignored",
    "Verif.NativeComp.wrong_abi_reached",
    "Verif.NativeComp.torn_info_stays",
    "Verif.NativeComp.waited_incomplete",
    "Verif.NativeComp.default_incomplete",
    "Verif.NativeComp.without_cleanup_wrong",
    "Verif.NativeComp.deleted_iff",
    "Verif.NativeComp.use_does_not_count",
    "Verif.NativeComp.used_now_deleted"
   ],
   "note": "The property fails in the code as its statement says; returned_up_to_date and default_up_to_date are what holds for runs one after the other."
  },
  {
   "property": "C148",
   "status": "partial",
   "theorems": [
    "Verif.EnvVars.expand_parts_partial",
    "Verif.EnvVars.other_refused",
    "Verif.EnvVars.escaped",
    "Verif.EnvVars.lookup_spec",
    "Verif.EnvVars.braces_refused"
   ],
   "note": "Everything but the documented form with braces, which the code always refuses (braces_refused)."
  },
  {
   "property": "C149",
   "status": "proved",
   "theorems": [
    "Verif.RecGuard.run_spec",
    "Verif.RecGuard.no_key_error",
    "Verif.RecGuard.nested_calls",
    "Verif.RecGuard.depth_bounded",
    "Verif.RecGuard.again_fine",
    "Verif.RecGuard.no_args"
   ],
   "note": "One thread; not tested against wrong programs."
  }
 ]
}