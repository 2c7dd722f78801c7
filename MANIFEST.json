{
 "claims": [
  {
   "property": "C01",
   "status": "proved",
   "theorems": [
    "Verif.begin_at_most_once",
    "Verif.no_end_before_begin",
    "Verif.end_follows_begin"
   ],
   "note": "At most one on_begin per sink and action for all histories, modes and sink behaviours; order for every logger that is never switched to synchronous mode with a backlog."
  },
  {
   "property": "C02",
   "status": "proved",
   "theorems": [
    "Verif.with_block_one_end",
    "Verif.with_block_delivered",
    "Verif.with_statement_one_end"
   ],
   "note": "All bodies; the action has not been ended before the block is entered; foreign code that does not raise."
  },
  {
   "property": "C03",
   "status": "partial",
   "theorems": [
    "Verif.exception_recorded_violated",
    "Verif.exception_recorded_partial",
    "Verif.exception_recorded_exact"
   ],
   "note": "False of the code when an on_exception sink raises (witness). Proved: recorded and published whatever other sinks and note handlers do. exception_recorded_exact: recorded if and only if the exception can be described and none of the on_exception methods called raises; otherwise no end event and the status stays."
  },
  {
   "property": "C04",
   "status": "partial",
   "theorems": [
    "Verif.with_normal_violated",
    "Verif.with_exception_violated",
    "Verif.with_exception_partial",
    "Verif.with_normal_partial",
    "Verif.with_normal_exact",
    "Verif.with_exception_exact"
   ],
   "note": "False of the code in both directions (witnesses). Proved: the body's exception survives all ordinary sink failures if note handlers do not raise; normal completion survives if sinks do not raise or the logger is asynchronous. with_normal_exact and with_exception_exact: a with statement ends normally, raises the body's exception or an error of lithoxyl's own if and only if the calls made by leaving it did not raise, or raised, as stated; what takes the place of the body's exception is characterised exactly."
  },
  {
   "property": "C05",
   "status": "partial",
   "theorems": [
    "Verif.active_restored_violated",
    "Verif.active_restored_parent_violated",
    "Verif.active_restored_failure_violated",
    "Verif.active_restored_partial",
    "Verif.block_is_parent",
    "Verif.active_restored_exact"
   ],
   "note": "False of the code for actions made elsewhere, explicit parents and raising sinks (witnesses). Proved for all programs that make actions in the with statement itself. active_restored_exact: when a block restores the active parents, if and only if."
  },
  {
   "property": "C06",
   "status": "proved",
   "theorems": [
    "Verif.parent_depth_counts",
    "Verif.parent_depth_eq",
    "Verif.parent_depth_cyclic"
   ],
   "note": "Every parent relation, cyclic ones included."
  },
  {
   "property": "C07",
   "status": "partial",
   "theorems": [
    "Verif.status_follows_calls_partial",
    "Verif.status_last_call_partial",
    "Verif.status_unchanged",
    "Verif.C07_exact",
    "Verif.C07_works_partial",
    "Verif.C07_violated"
   ],
   "note": "All histories if sinks do not raise. With sinks that raise the claim is false: C07_exact says, for every item in every reachable state and any foreign code, exactly when a status call or an exit takes effect, C07_works_partial derives the rule for histories whose status calls work."
  },
  {
   "property": "C08",
   "status": "proved",
   "theorems": [
    "Verif.duration_before_end",
    "Verif.duration_outside_block",
    "Verif.duration_nonneg",
    "Verif.duration_of_status_call",
    "Verif.duration_of_exit",
    "Verif.duration_unchanged",
    "Verif.duration_exact"
   ],
   "note": "All histories and clocks. 'Outside a with block' means no with block of the action was entered before. duration_exact covers exceptions and exits whatever sinks do."
  },
  {
   "property": "C09",
   "status": "partial",
   "theorems": [
    "Verif.data_last_writer_partial",
    "Verif.data_last_writer_any_partial",
    "Verif.C09_exact",
    "Verif.C09_stores_partial",
    "Verif.C09_violated"
   ],
   "note": "All histories if sinks do not raise. With an on_exception method that raises the claim is false: C09_exact says, for any foreign code, exactly when the keywords of a call are stored."
  },
  {
   "property": "C10",
   "status": "proved",
   "theorems": [
    "Verif.ids_unique",
    "Verif.ids_increase"
   ],
   "note": "All histories."
  },
  {
   "property": "C11",
   "status": "partial",
   "theorems": [
    "Verif.Guid.C11_unique_partial",
    "Verif.Guid.C11_order_partial",
    "Verif.Guid.C11_order_24_partial",
    "Verif.Guid.C11_order_violated",
    "Verif.Guid.C11_order_exact"
   ],
   "note": "Uniqueness holds for all seeds and forks. Order holds among guids of the same length; for every seed it breaks where the length grows (C11_order_violated). Exactly: consecutive guids are in order unless the number behind the second is a power of 16 from 16 on (C11_order_exact)."
  },
  {
   "property": "C12",
   "status": "partial",
   "theorems": [
    "Verif.end_at_most_once_violated",
    "Verif.end_at_most_once_partial",
    "Verif.C12_exact",
    "Verif.C12_once_iff",
    "Verif.C12_block"
   ],
   "note": "False of the code: every status call outside a with block publishes another end event (witness). Proved: never more than the status calls and block exits made. Exactly which end events a history publishes, in order, if nothing called raises: C12_exact; one per with block: C12_block."
  },
  {
   "property": "C13",
   "status": "proved",
   "theorems": [
    "Verif.registry_ok",
    "Verif.sinks_new",
    "Verif.sinks_requested"
   ],
   "note": "All histories of registry operations."
  },
  {
   "property": "C14",
   "status": "proved",
   "theorems": [
    "Verif.sync_publish",
    "Verif.sync_call"
   ],
   "note": "Per published event and per API call."
  },
  {
   "property": "C15",
   "status": "partial",
   "theorems": [
    "Verif.sink_isolation_violated",
    "Verif.sink_error_reaches_application",
    "Verif.sync_publish_fail_partial",
    "Verif.async_calls_silent_partial",
    "Verif.sink_error_exact"
   ],
   "note": "False of the code in synchronous mode (proved with witnesses); proved: what a failing sink leaves done, and isolation in asynchronous mode. sink_error_exact: a publishing call raises exactly what the last sink it called raised, and returns normally if and only if none raised."
  },
  {
   "property": "C16",
   "status": "proved",
   "theorems": [
    "Verif.async_delivery",
    "Verif.async_sink_fifo",
    "Verif.flush_delivers"
   ],
   "note": "All histories that keep the sinks and the mode of the logger and do not overfill its queue; no sink raises."
  },
  {
   "property": "C17",
   "status": "proved",
   "theorems": [
    "Verif.queue_bounded",
    "Verif.queue_keeps_newest"
   ],
   "note": "All histories; the queue is the newest 10000."
  },
  {
   "property": "C18",
   "status": "partial",
   "theorems": [
    "Verif.mode_switch_reorders_violated",
    "Verif.delivery_order_partial",
    "Verif.C18_call",
    "Verif.C18_exact",
    "Verif.C18_overtakes"
   ],
   "note": "False of the code: set_async(False) with a backlog lets later events overtake (witness). Proved: order holds in every history that never makes a logger synchronous with a backlog. C18_exact: the sink calls of every history, mode switches, flushes and changes of sinks included, are those of the outbox in Spec/Outbox.lean; C18_overtakes: in every reachable state with a synchronous logger that holds a backlog, what is published next is handed out before the backlog."
  },
  {
   "property": "C19",
   "status": "proved",
   "theorems": [
    "Verif.flush_outcome",
    "Verif.failing_delivery",
    "Verif.never_more_often"
   ],
   "note": "One flush exactly, and all histories with arbitrary sink failures."
  },
  {
   "property": "C20",
   "status": "proved",
   "theorems": [
    "Verif.ctx_flush_order",
    "Verif.ctx_flush_reaches_all",
    "Verif.ctx_flush_isolates",
    "Verif.ctx_flush_others"
   ],
   "note": "Sinks and preflush hooks may raise any Exception; note handlers are assumed not to raise (see C66)."
  },
  {
   "property": "C21",
   "status": "partial",
   "theorems": [
    "Verif.enable_async_violated",
    "Verif.enable_async_disables",
    "Verif.enable_async_partial"
   ],
   "note": "False of the code: enable_async passes False to set_async. Proved: the exact effect, and that new loggers are asynchronous."
  },
  {
   "property": "C22",
   "status": "proved",
   "theorems": [
    "Verif.disable_async_delivers"
   ],
   "note": "All reachable states; non-raising sinks. The actor and signal parts are separate."
  },
  {
   "property": "C23",
   "status": "proved",
   "theorems": [
    "Verif.Conc.concurrent_order",
    "Verif.Conc.concurrent_at_most_once",
    "Verif.Conc.concurrent_accounting",
    "Verif.Conc.concurrent_complete",
    "Verif.Conc.concurrent_exclusive",
    "Verif.Conc.concurrent_pop_nonempty",
    "Verif.Conc.concurrent_progress",
    "Verif.Conc.C23_sequential"
   ],
   "note": "Any number of threads publishing to and flushing one asynchronous logger, in every interleaving of their atomic steps. Modelled: the lock, the queue test, popleft, the hook calls one by one, append, publishing from inside sinks and preflush hooks, exceptions at any point of a flush. Sinks do not flush. C23_sequential: the flush of the sequential model is one of the schedules."
  },
  {
   "property": "C24",
   "status": "partial",
   "theorems": [
    "Verif.Reentrant.reentrant_flush_returns_partial",
    "Verif.Reentrant.reentrant_delivery_partial",
    "Verif.Reentrant.reentrant_order_partial",
    "Verif.Reentrant.reentrant_flush_returns_violated",
    "Verif.Reentrant.reentrant_order_violated",
    "Verif.Reentrant.C24_sequential"
   ],
   "note": "Violated as stated: a sink that publishes in reaction to each event keeps flush running for ever, and a sink that flushes from its hook makes later sinks receive later events first. Proved: flush returns whenever chains of events caused by events are bounded; it delivers everything exactly once; in order if no sink flushes. C24_sequential: with sinks that leave the logger alone the model is the flush of the world model."
  },
  {
   "property": "C25",
   "status": "proved",
   "theorems": [
    "Verif.preflush_all_run",
    "Verif.preflush_failure_noted"
   ],
   "note": "All hook lists and ordinary failures; note handlers are assumed not to raise (see C66)."
  },
  {
   "property": "C26",
   "status": "partial",
   "theorems": [
    "Verif.Actor.C26_bounds_partial",
    "Verif.Actor.C26_defaults",
    "Verif.Actor.C26_step",
    "Verif.Actor.C26_eight",
    "Verif.Actor.C26_backoff",
    "Verif.Actor.C26_reversed_violated",
    "Verif.Actor.C26_exact",
    "Verif.Actor.C26_reversed_exact"
   ],
   "note": "Proved for every interval setting with 0 <= interval <= max_interval. With max_interval below interval the code breaks the claim: every success lengthens the wait without bound (C26_reversed_violated). Arithmetic is exact; the code uses floats. Exactly: the bounds hold iff interval <= max_interval (C26_exact); otherwise each success lengthens the wait by an eighth of the difference (C26_reversed_exact)."
  },
  {
   "property": "C27",
   "status": "partial",
   "theorems": [
    "Verif.Actor.C27_violated",
    "Verif.Actor.C27_start_partial",
    "Verif.Actor.C27_exact"
   ],
   "note": "The code breaks the claim: start() on an actor that is still stopping returns silently and the task is never called again. Proved for start() on a dead actor used by one thread. C27_exact: for one user, start() leaves a running actor if and only if it found it dead, or in its loop with the flag down."
  },
  {
   "property": "C28",
   "status": "partial",
   "theorems": [
    "Verif.Actor.C28_stop_partial",
    "Verif.Actor.C28_restart",
    "Verif.Actor.C28_two_users_violated",
    "Verif.Actor.C28_users_partial",
    "Verif.Actor.C28_requested_partial"
   ],
   "note": "Proved for one user thread and every schedule against the actor thread. With two concurrent start() calls two threads are made and stop() ends only one.  C28_users_partial: for any number of users, if only one thread is alive and nobody else is in a call. C28_requested_partial: with any users and threads, as long as the flag stays up the task is started at most once more per thread that had just tested it."
  },
  {
   "property": "C29",
   "status": "partial",
   "theorems": [
    "Verif.Actor.C29_survives_partial",
    "Verif.Actor.C29_exception_stays_partial",
    "Verif.Actor.C29_violated",
    "Verif.Actor.C29_exact"
   ],
   "note": "The code breaks the claim when the note callback raises. Proved otherwise, for any number of users and every schedule. C29_exact: for every schedule and any number of users, a thread leaves its loop if and only if one of the listed events happens to it, and then for good."
  },
  {
   "property": "C30",
   "status": "proved",
   "theorems": [
    "Verif.Signal.C30_user_handler",
    "Verif.Signal.C30_default",
    "Verif.Signal.C30_results",
    "Verif.Signal.C30_not_asked",
    "Verif.Signal.C30_installed",
    "Verif.Signal.C30_force_displaces",
    "Verif.Signal.C30_off_main"
   ],
   "note": ""
  },
  {
   "property": "C31",
   "status": "partial",
   "theorems": [
    "Verif.Note.C31_note_partial",
    "Verif.Note.C31_format_never_raises",
    "Verif.Note.C31_violated",
    "Verif.Note.C31_exact"
   ],
   "note": "A raising note handler keeps later handlers from being called and reaches the caller; proved in full when no handler raises. C31_exact says which handlers are called when one raises."
  },
  {
   "property": "C32",
   "status": "partial",
   "theorems": [
    "Verif.Lvl.C32_eq_trans_violated",
    "Verif.Lvl.C32_consistent_violated",
    "Verif.Lvl.C32_hash_violated",
    "Verif.Lvl.C32_order_partial",
    "Verif.Lvl.C32_consistent_partial",
    "Verif.Lvl.C32_exact"
   ],
   "note": "The code breaks the full claim: == is not transitive, two levels can be both == and <, and equal levels can have different hashes (concrete witnesses). Proved in full for collections where equal names and equal values coincide (the built-in levels are one). Exactly: comparisons and hashes agree on a collection iff same name means same value there (C32_exact)."
  },
  {
   "property": "C33",
   "status": "proved",
   "theorems": [
    "Verif.Lvl.C33_get_level",
    "Verif.Lvl.C33_last_wins",
    "Verif.Lvl.C33_builtins"
   ],
   "note": " C33_builtins: the five levels there are out of the box, by name and value."
  },
  {
   "property": "C34",
   "status": "proved",
   "theorems": [
    "Verif.Lvl.C34_next",
    "Verif.Lvl.C34_prev",
    "Verif.Lvl.C34_monotone",
    "Verif.Lvl.C34_monotone_delta",
    "Verif.Lvl.C34_negative_delta_wraps"
   ],
   "note": "C34_negative_delta_wraps shows why the claim needs delta >= 0 for get_next_level."
  },
  {
   "property": "C35",
   "status": "partial",
   "theorems": [
    "Verif.Sens.C35_threshold_partial",
    "Verif.Sens.C35_monotone",
    "Verif.Sens.C35_comments",
    "Verif.Sens.C35_zero_violated",
    "Verif.Sens.C35_exact"
   ],
   "note": "Threshold law for all settings other than 0 and ''; a setting of 0 is read as the highest level (C35_zero_violated). C35_exact covers every setting: 0 and '' mean the highest level, like None."
  },
  {
   "property": "C36",
   "status": "proved",
   "theorems": [
    "Verif.Sens.C36_emitted",
    "Verif.Sens.C36_unknown",
    "Verif.Sens.C36_exception_selects_nothing"
   ],
   "note": "All histories. C36_exception_selects_nothing: the accepted name 'exception' selects no events."
  },
  {
   "property": "C37",
   "status": "proved",
   "theorems": [
    "Verif.Sens.C37_format"
   ],
   "note": "All templates, events and failures short of a BaseException. How a single field spec formats a single value is a parameter."
  },
  {
   "property": "C38",
   "status": "proved",
   "theorems": [
    "Verif.Sens.C38_precedence",
    "Verif.Py.C38_absent"
   ],
   "note": "A getter that itself raises KeyError counts as absent.  C38_absent: in entries, a name that is nowhere shows None, quoted."
  },
  {
   "property": "C39",
   "status": "partial",
   "theorems": [
    "Verif.Json.C39_read_back_partial",
    "Verif.Json.C39_injective_partial",
    "Verif.Json.C39_printable",
    "Verif.Json.C39_entry_partial",
    "Verif.Json.C39_surrogates_violated",
    "Verif.Json.C39_plain",
    "Verif.Json.C39_exact"
   ],
   "note": "For all text without a lone high surrogate directly followed by a lone low one (no decoded text has such a pair); C39_surrogates_violated shows that case collides. C39_printable is unconditional. Plain printable text is shown as it is (C39_plain). C39_exact: for every text, what is read back is the text with surrogate halves joined, and texts are quoted alike if and only if they are equal once joined."
  },
  {
   "property": "C40",
   "status": "partial",
   "theorems": [
    "Verif.Msg.C40_plain_partial",
    "Verif.Msg.C40_after_read_partial",
    "Verif.Msg.C40_violated",
    "Verif.Msg.C40_exact"
   ],
   "note": "Holds for messages without a field, and after the first non-empty read; otherwise the message shows the data map of the first non-empty read. C40_exact determines every read of a message."
  },
  {
   "property": "C41",
   "status": "proved",
   "theorems": [
    "Verif.Emit.C41_aggregate_emitter",
    "Verif.Emit.C41_aggregate_sink"
   ],
   "note": ""
  },
  {
   "property": "C42",
   "status": "partial",
   "theorems": [
    "Verif.Emit.C42_whole_partial",
    "Verif.Emit.C42_file_partial",
    "Verif.Emit.C42_pieces_partial",
    "Verif.Emit.C42_short_write_violated",
    "Verif.Emit.C42_raises_only_partial",
    "Verif.Emit.C42_error_escapes_violated",
    "Verif.Emit.C42_partial_write_violated",
    "Verif.Emit.C42_lost_buffer_violated",
    "Verif.Emit.C42_raises_exact",
    "Verif.Emit.C42_quiet_partial"
   ],
   "note": "Holds when writes that do not do all leave nothing behind and no flush failure is followed by a stale handle; whatever happens, the file gets only beginnings of the entries, in order, at most two per entry. Otherwise false: the rest of a short write is lost, partial writes are repeated by the retry, a lost buffer loses entries, and a failing reopen or retry raises into the application. C42_raises_exact: exactly when an operation raises."
  },
  {
   "property": "C43",
   "status": "partial",
   "theorems": [
    "Verif.Emit.C43_split_partial",
    "Verif.Emit.C43_file_partial",
    "Verif.Emit.unbordered_singleton",
    "Verif.Emit.unbordered_pair",
    "Verif.Emit.C43_violated",
    "Verif.Emit.C43_needed",
    "Verif.Emit.C43_exact",
    "Verif.Emit.C43_file_exact"
   ],
   "note": "For separators that cannot overlap themselves (every one-byte separator and the default line separators); false otherwise (C43_violated). C43_needed: for every separator that can overlap itself some entry is not read back. Exactly which entries are read back, for every separator (C43_exact, C43_file_exact)."
  },
  {
   "property": "C44",
   "status": "partial",
   "theorems": [
    "Verif.Emit.C44_priority_partial",
    "Verif.Emit.C44_violated",
    "Verif.Emit.C44_exact"
   ],
   "note": "For DEBUG, INFO and CRITICAL and begin, warn and end events; comments and the levels _min and _max have no priority (C44_violated). C44_exact says which events get a priority."
  },
  {
   "property": "C45",
   "status": "proved",
   "theorems": [
    "Verif.Mom.C45_moments",
    "Verif.Mom.C45_variance",
    "Verif.Mom.C45_kurtosis",
    "Verif.Mom.C45_skewness",
    "Verif.Mom.C45_skewness_zero",
    "Verif.Mom.C45_std_dev",
    "Verif.Mom.C45_order"
   ],
   "note": "Exact arithmetic: values are elements of a linearly ordered field (reals where a root is taken); float rounding is not modelled."
  },
  {
   "property": "C46",
   "status": "proved",
   "theorems": [
    "Verif.Mom.C46_min_max"
   ],
   "note": ""
  },
  {
   "property": "C47",
   "status": "partial",
   "theorems": [
    "Verif.Accum.C47_shape_partial",
    "Verif.Accum.C47_one_partial",
    "Verif.Accum.C47_increasing_partial",
    "Verif.Accum.C47_violated",
    "Verif.Accum.C47_step",
    "Verif.Accum.C47_history_partial",
    "Verif.Accum.C47_exact",
    "Verif.Accum.C47_second_violated"
   ],
   "note": "False of the code: a value below the smallest kept one is dropped although there is room, and a full list overwrites a larger value. Proved: sorted, bounded, sub-multiset of the values, exact for count 1 and for increasing values. C47_step: exactly which values an add treats right; C47_history_partial: exact for every history of such values. C47_exact: right all along exactly if every value is treated right in its place; C47_second_violated: for every capacity above one a second value that is not larger is dropped."
  },
  {
   "property": "C48",
   "status": "partial",
   "theorems": [
    "Verif.Accum.C48_shape_partial",
    "Verif.Accum.C48_min_partial",
    "Verif.Accum.C48_violated",
    "Verif.Accum.C48_step",
    "Verif.Accum.C48_history_partial",
    "Verif.Accum.C48_decreasing_partial",
    "Verif.Accum.C48_exact",
    "Verif.Accum.C48_second_violated"
   ],
   "note": "False of the code in the same way. Proved: sorted, bounded, sub-multiset, and the first element is the exact minimum. C48_step: exactly which values an add treats right; C48_history_partial: exact for every history of such values. C48_exact: right all along exactly if every value is treated right in its place; C48_second_violated: for every capacity above one a second value that is not smaller is dropped."
  },
  {
   "property": "C49",
   "status": "partial",
   "theorems": [
    "Verif.Accum.C49_partition_partial",
    "Verif.Accum.C49_counts_partial",
    "Verif.Accum.C49_sum",
    "Verif.Accum.C49_violated",
    "Verif.Accum.C49_exact",
    "Verif.Accum.C49_ranges"
   ],
   "note": "add raises for inf and NaN. Proved for all other values. C49_exact: after any values, refused or not, add raises exactly for inf and NaN, and each range counts the values in it that were not refused. C49_ranges: the ranges are exactly those between neighbouring bounds."
  },
  {
   "property": "C50",
   "status": "partial",
   "theorems": [
    "Verif.Quant.C50_count_min_max",
    "Verif.Quant.C50_quantile",
    "Verif.Quant.C50_order",
    "Verif.Quant.C50_monotone",
    "Verif.Quant.C50_between_partial",
    "Verif.Quant.C50_raises",
    "Verif.Quant.C50_add_ok",
    "Verif.Quant.C50_get_quantiles",
    "Verif.Quant.C50_iqr_trimean",
    "Verif.Quant.C50_violated",
    "Verif.Quant.C50_between_stored"
   ],
   "note": "Quantiles can lie outside [min, max] because data is stored in single precision and min/max are not. Everything else is proved for any storage rounding; the bound for exact storage. C50_between_stored: if storing keeps the order of values, quantiles lie between the extremes as stored."
  },
  {
   "property": "C51",
   "status": "partial",
   "theorems": [
    "Verif.Quant.C51_reservoir_partial",
    "Verif.Quant.C51_below_cap_partial",
    "Verif.Quant.C51_extremes_partial",
    "Verif.Quant.C51_violated",
    "Verif.Quant.C51_exact"
   ],
   "note": "False of the code for count, min and max: values the reservoir does not keep are not counted. The reservoir part is proved for every sequence of random choices. C51_exact: count, min and max are those of the values taken in."
  },
  {
   "property": "C52",
   "status": "proved",
   "theorems": [
    "Verif.P2.C52_estimates",
    "Verif.P2.C52_readable",
    "Verif.P2.C52_too_few"
   ],
   "note": "Exact arithmetic."
  },
  {
   "property": "C53",
   "status": "partial",
   "theorems": [
    "Verif.P2.C53_estimates_partial",
    "Verif.P2.C53_count_min_max_partial",
    "Verif.P2.C53_collecting_partial",
    "Verif.P2.C53_violated"
   ],
   "note": "False of the code: the first len(points)+2 values are not counted, and untracked quantiles can be read only before."
  },
  {
   "property": "C54",
   "status": "proved",
   "theorems": [
    "Verif.P2.C54_result",
    "Verif.P2.C54_accepts",
    "Verif.P2.C54_idempotent"
   ],
   "note": "For points that float() leaves unchanged."
  },
  {
   "property": "C55",
   "status": "partial",
   "theorems": [
    "Verif.Ewma.C55_conservation",
    "Verif.Ewma.C55_windows",
    "Verif.Ewma.C55_range",
    "Verif.Ewma.C55_converges",
    "Verif.Ewma.C55_stable_partial",
    "Verif.Ewma.C55_reads_partial",
    "Verif.Ewma.C55_violated_raises",
    "Verif.Ewma.C55_violated_stable",
    "Verif.Ewma.C55_make",
    "Verif.Ewma.C55_range_made",
    "Verif.Ewma.C55_reads_exact",
    "Verif.Ewma.C55_stable_exact",
    "Verif.Ewma.C55_formula",
    "Verif.Ewma.C55_defined"
   ],
   "note": "Range, convergence and conservation hold for positive periods and a clock that does not go back. Reading raises ZeroDivisionError in the instant of creation or of the last update, and a forced update is not cleared by a first read at or after the interval: both are proved as violations. C55_reads_exact: when exactly a read raises. C55_stable_exact: a read within the interval leaves the rates alone unless every read before came late. C55_formula: each rate is the moving average of the rates of all windows closed so far; C55_defined: it is None exactly until the first window is closed."
  },
  {
   "property": "C56",
   "status": "partial",
   "theorems": [
    "Verif.Sinks.C56_tracked",
    "Verif.Sinks.C56_default",
    "Verif.Sinks.C56_empty",
    "Verif.Sinks.C56_window_partial",
    "Verif.Sinks.C56_estimate",
    "Verif.Sinks.C56_nonneg_partial",
    "Verif.Sinks.C56_violated_end",
    "Verif.Sinks.C56_violated_negative",
    "Verif.Sinks.C56_violated_raises",
    "Verif.Sinks.C56_violated_zero",
    "Verif.Sinks.C56_exact"
   ],
   "note": "The window's end does not limit what is counted, a window before the tracked events has a negative rate, some windows raise ZeroDivisionError and a bound of 0 counts as absent: proved as violations. For windows that begin after a tracked event, contain one and end after the last, the rate is as claimed. C56_exact: the rate of every window, and exactly when it raises."
  },
  {
   "property": "C57",
   "status": "partial",
   "theorems": [
    "Verif.Sinks.C57_grand_total",
    "Verif.Sinks.C57_cells_partial",
    "Verif.Sinks.C57_violated_names",
    "Verif.Sinks.C57_violated_all",
    "Verif.Sinks.C57_rows",
    "Verif.Sinks.C57_prevails"
   ],
   "note": "The grand total always holds. Cells and subtotals hold for loggers with a name of their own and labels other than '__all__'; both exceptions are proved as violations. C57_rows drops the condition that the logger's name be its own: the row of a name counts exactly the events of one of the loggers of that name, the one first heard of last (C57_prevails: there is exactly one)."
  },
  {
   "property": "C58",
   "status": "partial",
   "theorems": [
    "Verif.Sinks.C58_total_partial",
    "Verif.Sinks.C58_counts",
    "Verif.Sinks.C58_violated_missing",
    "Verif.Sinks.C58_violated_names",
    "Verif.Sinks.C58_rows",
    "Verif.Sinks.C58_bounds"
   ],
   "note": "Holds for loggers with a name of their own and no key '__missing__'; both exceptions are proved as violations. boltons' ThresholdCounter is external and modelled from its documented algorithm. C58_rows: the same for loggers that share a name, for the one of them first heard of last. C58_bounds: whatever the names and keys, the total of a name is at most the number of end events of that logger and short by at most those keyed '__missing__'."
  },
  {
   "property": "C59",
   "status": "proved",
   "theorems": [
    "Verif.Sinks.C59_routing",
    "Verif.Sinks.C59_no_raise",
    "Verif.Sinks.C59_reservoir"
   ],
   "note": "For any accumulator type, and the default reservoir in particular. P2 accumulators with points that lack the quartiles raise on reading, see C53."
  },
  {
   "property": "C60",
   "status": "partial",
   "theorems": [
    "Verif.Sinks.C60_aggregates_partial",
    "Verif.Sinks.C60_violated",
    "Verif.Sinks.C60_aggregates_exact"
   ],
   "note": "Holds for labels other than '__all__'; the exception is proved as a violation. The rates are those returned at the time of the call; reading may raise, see C55. C60_aggregates_exact: without any assumption on the labels; each aggregate is there if and only if no label of its level is the special key."
  },
  {
   "property": "C61",
   "status": "proved",
   "theorems": [
    "Verif.wrapped_same_result",
    "Verif.wrapped_pure",
    "Verif.wrapped_disabled",
    "Verif.wrapped_one_begin_one_end",
    "Verif.wrapped_own_data",
    "Verif.wrapped_calls_distinct",
    "Verif.WrapSample.wrapped_result_violated"
   ],
   "note": "Sinks assumed calm, as the statement says; wrapped_result_violated shows that the assumption is needed."
  },
  {
   "property": "C62",
   "status": "partial",
   "theorems": [
    "Verif.Wrapping.unwrap_undoes_wrap_partial",
    "Verif.Wrapping.unwrap_restores_reads_partial",
    "Verif.Wrapping.wrap_all_sound",
    "Verif.Wrapping.wrap_all_complete_partial",
    "Verif.Wrapping.Demo.inherited_function_violated",
    "Verif.Wrapping.Demo.static_method_violated",
    "Verif.Wrapping.Demo.wrap_all_depth_violated",
    "Verif.Wrapping.C62_complete_partial",
    "Verif.Wrapping.C62_deep_partial"
   ],
   "note": "False of the code in three ways (inheritance between classes in sight, static methods, classes first reached by a longer path); proved where they do not come up. C62_complete_partial: at any depth everything within it is wrapped if no class is first met at the end of a detour; C62_deep_partial: with a depth beyond the number of objects in sight always."
  },
  {
   "property": "C63",
   "status": "partial",
   "theorems": [
    "Verif.concurrent_blocks_partial",
    "Verif.concurrent_last_exit_partial",
    "Verif.concurrent_blocks_other",
    "Verif.concurrent_blocks_violated"
   ],
   "note": "Violated for overlapping blocks (witness proved): the finished action of the block left first stays active. Proved: loggers are independent; nested blocks of any threads restore the active action; the last block left decides in every interleaving. Interleaving is at the granularity of calls."
  },
  {
   "property": "C64",
   "status": "proved",
   "theorems": [
    "Verif.comment_publishes_one",
    "Verif.comment_delivered",
    "Verif.comment_never_ends",
    "Verif.C64_parented"
   ],
   "note": "All reachable states."
  },
  {
   "property": "C65",
   "status": "proved",
   "theorems": [
    "Verif.warnings_recorded",
    "Verif.warning_published_at_once"
   ],
   "note": "All histories and all foreign code."
  },
  {
   "property": "C66",
   "status": "partial",
   "theorems": [
    "Verif.bad_notes_partial",
    "Verif.bad_notes_flush_violated",
    "Verif.exception_recorded_partial",
    "Verif.with_exception_violated",
    "Verif.Actor.C29_violated"
   ],
   "note": "Violated when something else raises as well: the note then raises, flush delivers nothing ever again, the exception of a with block is replaced, the actor thread dies (witnesses proved). Proved: note handlers alone cannot disturb anything, in any history; an action still ends with the exception recorded whatever note handlers and on_end sinks do."
  },
  {
   "property": "C67",
   "status": "partial",
   "theorems": [
    "Verif.Sens.C67_violated",
    "Verif.Sens.C67_template_partial",
    "Verif.Tmpl.C67_exact",
    "Verif.Tmpl.C67_made",
    "Verif.Grammar.C67_grammar"
   ],
   "note": "Without a base template the literal text None is rendered. C67_exact determines what a formatter makes of an event for every combination of templates, C67_made when it can be made. C67_grammar: likewise for each of a formatter's templates."
  },
  {
   "property": "C68",
   "status": "partial",
   "theorems": [
    "Verif.Msg.C68_no_raise_partial",
    "Verif.Msg.C68_violated",
    "Verif.Msg.C68_raises",
    "Verif.Grammar.C68_grammar_partial"
   ],
   "note": "Raises exactly for texts with a { that are not valid templates; this includes default messages of actions whose names contain a brace. C68_raises: each of these raises at every read. C68_grammar_partial: exactly which messages raise, by the grammar."
  },
  {
   "property": "C69",
   "status": "partial",
   "theorems": [
    "Verif.Msg.C69_escape_partial",
    "Verif.Msg.C69_violated",
    "Verif.Msg.C69_iff"
   ],
   "note": "For texts that contain a {; a text with only } is not unescaped. C69_iff: exactly the texts with a { or without a } come out."
  },
  {
   "property": "C70",
   "status": "partial",
   "theorems": [
    "Verif.Msg.C70_default_partial",
    "Verif.Msg.C70_violated",
    "Verif.C70_begin",
    "Verif.C70_enter",
    "Verif.C70_end",
    "Verif.C70_texts",
    "Verif.C70_own_data_violated"
   ],
   "note": "For names without a {, and without a } where the data map is shown. C70_begin, C70_enter, C70_end: which text an event without a message gets, at the calls; C70_own_data_violated: data given by the ending call itself is not shown."
  },
  {
   "property": "C71",
   "status": "partial",
   "theorems": [
    "Verif.Sinks.C71_parts",
    "Verif.Sinks.C71_reads",
    "Verif.Sinks.C71_grand_total",
    "Verif.Sinks.C71_cells_partial",
    "Verif.Sinks.C71_lifetime",
    "Verif.Sinks.C71_violated_names",
    "Verif.Sinks.C71_rows"
   ],
   "note": "Exact arithmetic. Cells and subtotals for loggers with a name of their own and labels other than '__all__'; the grand total always. False for loggers that share a name (C71_violated_names). C71_rows: the same for loggers that share a name, for the one of them first heard of last."
  },
  {
   "property": "C72",
   "status": "proved",
   "theorems": [
    "Verif.Sinks.C72_counts",
    "Verif.Sinks.C72_frequent"
   ],
   "note": "The threshold counter itself is boltons code, modelled in Model/Sinks (tcInit, tcAdd)."
  },
  {
   "property": "C73",
   "status": "proved",
   "theorems": [
    "Verif.Quant.C73_cover",
    "Verif.Quant.C73_counts",
    "Verif.Quant.C73_exact",
    "Verif.Quant.C73_bounds"
   ],
   "note": "Arithmetic is exact; storing may round in any way. C73_bounds: the cells meet at the quantiles of the points."
  },
  {
   "property": "C74",
   "status": "partial",
   "theorems": [
    "Verif.Quant.C74_values_partial",
    "Verif.Quant.C74_violated",
    "Verif.Quant.C74_exact"
   ],
   "note": "Holds when values are stored as they are; fails when storing in single precision makes a value larger. C74_exact: however values are rounded when stored, no range runs backwards if and only if every quantile asked for lies between the least and greatest value added; ranges between quantiles never do."
  },
  {
   "property": "C75",
   "status": "proved",
   "theorems": [
    "Verif.Fields.C75_available",
    "Verif.Fields.C75_values"
   ],
   "note": "All histories. Level names are non-empty and json.dumps can write the data map; formatting of a value to text is not modelled."
  },
  {
   "property": "C76",
   "status": "partial",
   "theorems": [
    "Verif.Fields.C76_lasting_partial",
    "Verif.Fields.C76_depth_partial",
    "Verif.Fields.C76_violated",
    "Verif.Fields.C76_changing"
   ],
   "note": "False for data map, end message, end time, duration, status_char and the exc_* fields (witness for each, C76_changing). Proved for all other fields that ever have a value; warn_char never has one."
  },
  {
   "property": "C77",
   "status": "partial",
   "theorems": [
    "Verif.Fields.C77_warn_char_violated",
    "Verif.Fields.C77_raw_violated",
    "Verif.Fields.C77_raw_partial",
    "Verif.Fields.C77_identity",
    "Verif.Fields.C77_begin",
    "Verif.Fields.C77_end",
    "Verif.Fields.C77_end_published",
    "Verif.Fields.C77_unfinished",
    "Verif.Fields.C77_exception",
    "Verif.Fields.C77_status_char",
    "Verif.Fields.C77_status_char_other",
    "Verif.Fields.C77_depth",
    "Verif.Fields.C77_data"
   ],
   "note": "warn_char never has a value and event_message_raw shows the rendered message; the other raw fields are right, and so are the fields for identity, beginning, end, duration, exception, status, depth and data."
  },
  {
   "property": "C78",
   "status": "proved",
   "theorems": [
    "Verif.SyncConc.C78_at_most_once",
    "Verif.SyncConc.C78_exactly_once",
    "Verif.SyncConc.C78_order",
    "Verif.SyncConc.C78_sequential"
   ],
   "note": "Interleaving model of the synchronous publishing methods; C78_nested_order shows why the order needs sinks that do not publish. C78_sequential: one thread left alone does what the world model's publishing does."
  },
  {
   "property": "C79",
   "status": "proved",
   "theorems": [
    "Verif.SyncConc.C79_registered"
   ],
   "note": "Lists are objects: a loop keeps the list it began with, set_sinks swaps in new ones, add_sink appends."
  },
  {
   "property": "C80",
   "status": "partial",
   "theorems": [
    "Verif.SyncConc.C80_once_partial",
    "Verif.SyncConc.C80_added_twice_violated",
    "Verif.SyncConc.C80_replaced_violated",
    "Verif.SyncConc.C80_add_sequential",
    "Verif.SyncConc.C80_set_sequential",
    "Verif.SyncConc.C80_adding_partial"
   ],
   "note": "False in general: two threads adding one sink register it twice; a sink in both sets misses an event published during set_sinks. Proved: no doubles if calls of add_sink and set_sinks do not overlap. C80_add_sequential, C80_set_sequential: one thread left alone does what the world model's add_sink and set_sinks do. C80_adding_partial: while threads publish and add sinks at the same time, even the same ones, every sink that was there before still gets each event exactly once and in order."
  },
  {
   "property": "C81",
   "status": "proved",
   "theorems": [
    "Verif.C81_created",
    "Verif.C81_reraise"
   ],
   "note": "parent_action values that are not actions are taken as absent (model simplification)."
  },
  {
   "property": "C82",
   "status": "proved",
   "theorems": [
    "Verif.C82_sound"
   ],
   "note": ""
  },
  {
   "property": "C83",
   "status": "proved",
   "theorems": [
    "Verif.C83_exception",
    "Verif.C83_exit",
    "Verif.C83_only"
   ],
   "note": "Under the assumption that the exception's information can be extracted and the default message built; otherwise nothing is recorded (C03)."
  },
  {
   "property": "C84",
   "status": "proved",
   "theorems": [
    "Verif.Exit.C84_handlers_run",
    "Verif.Exit.C84_flushed",
    "Verif.Exit.C84_handler_installed",
    "Verif.Exit.C84_disposition",
    "Verif.Exit.C84_delivered"
   ],
   "note": "Exit handlers run in the order of Python's atexit module (last registered first); the flush thread and its join are not part of this model.  C84_disposition: after the exit handlers lithoxyl's handler for SIGTERM is gone. C84_delivered: what was queued and what exit handlers published is delivered, each event once, in order."
  },
  {
   "property": "C85",
   "status": "partial",
   "theorems": [
    "Verif.Exit.C85_violated",
    "Verif.Exit.C85_exact"
   ],
   "note": "Refuted on the supported Python versions: atexit has no _exithandlers attribute since Python 3, so atexit_reissue_sigterm gives up and every SIGTERM that lithoxyl's handler takes ends in exit status 143.  C85_exact: how a SIGTERM ends the process, by the calls made before."
  },
  {
   "property": "C86",
   "status": "proved",
   "theorems": [
    "Verif.Tmpl.C86_message",
    "Verif.Tmpl.C86_reads",
    "Verif.Tmpl.C86_extra"
   ],
   "note": "Formatter construction and formatting on character lists, with the positional numbering, the template parser, the table of known fields with extra ones and the data map; values and their formatting are abstract. Field names with attribute or index paths and nested specs are in the parser but not in the parts of this theorem. Format specs may contain nested fields (balanced braces)."
  },
  {
   "property": "C87",
   "status": "partial",
   "theorems": [
    "Verif.Tmpl.C87_never_raises_partial",
    "Verif.Tmpl.C87_valid",
    "Verif.Tmpl.C87_violated",
    "Verif.Tmpl.C87_raises",
    "Verif.Tmpl.C87_at_once",
    "Verif.Tmpl.C87_exact",
    "Verif.Grammar.C87_grammar"
   ],
   "note": "False for a defaulter that raises KeyError: the formatter is made, using it raises KeyError (C87_violated). Proved for every other defaulter and for all quoters, getters and values that raise no BaseException. What making a formatter raises: C87_raises. Made and used at once (C87_at_once). Exactly: using a made formatter raises iff the defaulter raised KeyError for a field of the template (C87_exact). C87_grammar: the valid templates are the texts of an explicit grammar (Spec/Grammar.lean)."
  },
  {
   "property": "C88",
   "status": "partial",
   "theorems": [
    "Verif.Tmpl.C88_clean_partial",
    "Verif.Tmpl.C88_printable_partial",
    "Verif.Tmpl.C88_quoted",
    "Verif.Tmpl.C88_violated"
   ],
   "note": "False in general: a data map entry under the name of an unquoted built-in field takes the field's place and is shown unquoted, line breaks included (C88_violated of the full statement C88_full). Proved when no data or keyword argument has the name of an unquoted known field."
  },
  {
   "property": "C89",
   "status": "proved",
   "theorems": [
    "Verif.Tmpl.C89_entry",
    "Verif.Tmpl.C89_read_back"
   ],
   "note": "The reader of the specification (Spec/Entry.lean) is independent of the formatter. Uses the read-back theorem of C39 for quoted text; text of Lean characters has no surrogates, so the exception of C39 does not arise."
  },
  {
   "property": "C90",
   "status": "partial",
   "theorems": [
    "Verif.Files.C90_append_partial",
    "Verif.Files.C90_overwrite_partial",
    "Verif.Files.C90_make",
    "Verif.Files.C90_overwrite_violated",
    "Verif.Files.C90_make_violated",
    "Verif.Files.C90_emptied_partial"
   ],
   "note": "Proved for emitters that append and for one that overwrites alone; false for an overwriting emitter beside another, and for one that could not be made. C90_emptied_partial: from the making of an overwriting emitter on, even one that fails, the file is what the appending emitters were given since."
  },
  {
   "property": "C91",
   "status": "partial",
   "theorems": [
    "Verif.Utf8.C91_decode_partial",
    "Verif.Utf8.C91_append",
    "Verif.Utf8.C91_ascii",
    "Verif.Utf8.C91_valid",
    "Verif.Utf8.C91_violated",
    "Verif.Utf8.C91_utf16_violated",
    "Verif.Utf8.C91_utf16",
    "Verif.Utf8.C91_exact",
    "Verif.Utf8.C91_plain"
   ],
   "note": "Decoding gives the text back if it has no lone surrogates; with them it is false. Validity and concatenation hold for every text.  C91_utf16: which stray characters UTF-16 files have. C91_exact: exactly which texts a reader gets back. C91_plain: ASCII text is written as it is."
  },
  {
   "property": "C92",
   "status": "proved",
   "theorems": [
    "Verif.LogFile.C92_read_log"
   ],
   "note": "End to end for templates of space-separated fields, unquoted fields without spaces and line breaks."
  },
  {
   "property": "C93",
   "status": "partial",
   "theorems": [
    "Verif.Enc.C93_made",
    "Verif.Enc.C93_emits",
    "Verif.Enc.C93_lenient",
    "Verif.Enc.C93_errors",
    "Verif.Enc.C93_returns_violated",
    "Verif.Enc.C93_answer"
   ],
   "note": "All but the returned value of check_encoding_settings(reraise=False), which is false for the default settings. C93_answer says exactly what the check returns."
  },
  {
   "property": "C94",
   "status": "partial",
   "theorems": [
    "Verif.Frames.C94_module_partial",
    "Verif.Frames.C94_name_partial",
    "Verif.Frames.C94_violated",
    "Verif.Frames.C94_subclass_violated",
    "Verif.Frames.C94_deep",
    "Verif.Frames.C94_exact"
   ],
   "note": "Proved for makers without a local variable `self` that is a logger and subclasses that call their first argument `self`; false otherwise. Beyond ten thousand frames it raises (C94_deep). Exactly, for every stack: C94_exact."
  },
  {
   "property": "C95",
   "status": "proved",
   "theorems": [
    "Verif.Iso.C95_calendar",
    "Verif.Iso.C95_order",
    "Verif.Iso.C95_rounded",
    "Verif.Iso.C95_shape",
    "Verif.Iso.C95_text"
   ],
   "note": "For times in whole microseconds, and for any rounding to them that keeps order.  C95_text: read as a date and a time of day the text is the time."
  },
  {
   "property": "C96",
   "status": "partial",
   "theorems": [
    "Verif.Iso.C96_noms",
    "Verif.Iso.C96_local_partial",
    "Verif.Iso.C96_violated",
    "Verif.Iso.C96_notz_violated",
    "Verif.Iso.C96_wall",
    "Verif.Iso.C96_noms_text",
    "Verif.Iso.C96_text_partial",
    "Verif.Iso.C96_exact",
    "Verif.Iso.C96_offset_exact"
   ],
   "note": "Proved for the fields without fractions and, away from the end of summer time, for those with; false in every zone with summer time for the latter.  C96_noms_text, C96_text_partial: date, time of day and offset read from the text are together the time. Exactly which times are shown alike, and when the offset shown is the right one: C96_exact, C96_offset_exact."
  },
  {
   "property": "C97",
   "status": "partial",
   "theorems": [
    "Verif.Dec.C97_fixed",
    "Verif.Dec.C97_fields",
    "Verif.Dec.C97_auto",
    "Verif.Dec.C97_mono",
    "Verif.Dec.C97_width_partial",
    "Verif.Dec.C97_width_violated",
    "Verif.Dec.C97_tie",
    "Verif.Dec.C97_width_exact"
   ],
   "note": "All but the width, which is false for durations rounded up to a thousand of their unit. Ties go to the even last digit (C97_tie). Exactly which durations take nine columns, those below zero included: C97_width_exact."
  },
  {
   "property": "C98",
   "status": "partial",
   "theorems": [
    "Verif.C98_exception",
    "Verif.C98_normal",
    "Verif.C98_off_partial",
    "Verif.C98_lost",
    "Verif.C98_violated",
    "Verif.C98_exact",
    "Verif.C98_reraise_true"
   ],
   "note": "What leaves the block is unchanged; the end is not recorded when the sink raises an exception again. C98_exact: an exception that leaves an entered block is recorded if and only if no debug sink registered then selects it for raising again; otherwise nothing is published. C98_reraise_true: with reraise=True exactly Exceptions are lost."
  },
  {
   "property": "C99",
   "status": "proved",
   "theorems": [
    "Verif.Modes.C99_at_most_once",
    "Verif.Modes.C99_nothing_lost",
    "Verif.Modes.C99_synchronous",
    "Verif.Modes.C99_sequential"
   ],
   "note": "Every schedule of any number of threads; sinks that do not raise or call lithoxyl. C99_sequential: one thread of this model is the world model."
  },
  {
   "property": "C100",
   "status": "partial",
   "theorems": [
    "Verif.Modes.C100_bound_partial",
    "Verif.Modes.C100_quiet_partial",
    "Verif.Modes.C100_context_partial",
    "Verif.Modes.C100_stranded_violated",
    "Verif.Modes.C100_made_violated"
   ],
   "note": "False of the code: a publishing call that has read async_mode appends its event after the flush; a logger made while disable_async flushes takes over and keeps asynchronous mode. Proved for loggers that nobody makes, removes or switches meanwhile: they are synchronous and have fewer events queued than there are threads, none if nobody publishes on them. Loggers made after the return are synchronous."
  },
  {
   "property": "C101",
   "status": "partial",
   "theorems": [
    "Verif.Weak.C101_kept_partial",
    "Verif.Weak.C101_once_partial",
    "Verif.Weak.C101_violated",
    "Verif.Weak.C101_nothing_lost",
    "Verif.Weak.C101_removed",
    "Verif.Weak.C101_lost_exact",
    "Verif.Weak.C101_flush_exact",
    "Verif.Weak.C101_sequential"
   ],
   "note": "False of the code: the context refers to loggers weakly, so a dropped logger is collected with its queue. Proved if the application keeps the logger until the flush is called; at most once and in order in every history. C101_nothing_lost: while the application keeps the logger, delivered and queued together are all that was published. C101_removed: a removed logger is no longer flushed by the context. C101_lost_exact: events are lost if and only if the collector takes the logger while they are queued and neither the application nor a flush under way holds it. C101_flush_exact: what a flush delivers of a logger is decided by whether it is registered when the flush is called. One thread of the model of copying does the same (C101_sequential)."
  },
  {
   "property": "C102",
   "status": "partial",
   "theorems": [
    "Verif.Shared.C102_ends_partial",
    "Verif.Shared.C102_warnings_partial",
    "Verif.Shared.C102_begins_partial",
    "Verif.Shared.C102_begun_first_partial",
    "Verif.Shared.C102_statuses_partial",
    "Verif.Shared.C102_two_begins_violated",
    "Verif.Shared.C102_end_first_violated",
    "Verif.Shared.C102_same_end_violated",
    "Verif.Shared.C102_violated",
    "Verif.Shared.C102_sequential",
    "Verif.Shared.C102_asked_partial",
    "Verif.Shared.C102_last_partial"
   ],
   "note": "False of the code: begin and _end test, store and read attributes in separate steps (witnesses). Proved: the number of end events, the warnings, at least one and at most one begin event per thread; the statuses, in order, if one thread makes the status calls; and all of it for an action whose begin has returned before it is shared. C102_sequential: one thread left alone does what the world model's methods do. For every schedule: no end event without a call that asked for its status, never back to an older event (C102_asked_partial), and in the end the action shows what was published last (C102_last_partial)."
  },
  {
   "property": "C103",
   "status": "proved",
   "theorems": [
    "Verif.Mom.C103_mean",
    "Verif.Mom.C103_variance_zero",
    "Verif.Mom.C103_popoviciu",
    "Verif.Mom.C103_pearson",
    "Verif.Mom.C103_units",
    "Verif.Mom.C103_shape"
   ],
   "note": "Exact arithmetic; the square root is any function with the defining properties of one, as in C45."
  },
  {
   "property": "C104",
   "status": "proved",
   "theorems": [
    "Verif.Conc.C104_delivered",
    "Verif.Conc.C104_returns"
   ],
   "note": "For every schedule of the concurrent flush model; delivery assumes nothing raises and the queue does not overflow (those are C105 and C20)."
  },
  {
   "property": "C105",
   "status": "proved",
   "theorems": [
    "Verif.Conc.C105_lost",
    "Verif.Conc.C105_released",
    "Verif.Conc.C105_recovers"
   ],
   "note": "The exception may come at any step of flush; queue within its limit."
  },
  {
   "property": "C106",
   "status": "partial",
   "theorems": [
    "Verif.Interrupt.C106_whole",
    "Verif.Interrupt.C106_uninterrupted",
    "Verif.Interrupt.C106_before",
    "Verif.Interrupt.C106_raised",
    "Verif.Interrupt.C106_complete_partial",
    "Verif.Interrupt.C106_active_partial",
    "Verif.Interrupt.C106_repaired_partial",
    "Verif.Interrupt.C106_recorded_partial",
    "Verif.Interrupt.C106_enter_violated",
    "Verif.Interrupt.C106_exit_violated",
    "Verif.Interrupt.C106_violated",
    "Verif.Interrupt.C106_sequential",
    "Verif.Interrupt.C106_block_exact",
    "Verif.Interrupt.C106_active_either"
   ],
   "note": "False as stated: an exception inside __enter__ or __exit__ leaves the action active, and possibly begun and never ended (witnesses). Proved for every other point and every other action, that an enclosing block repairs the active action, that the exception is not lost, and what a program does before it comes. Without an interruption the small-step model is the world model: C106_sequential. C106_block_exact: after a block the active action is what it was if and only if the exception did not come in the block's own __enter__ once the action was active, or in its own __exit__. C106_active_either: after any program it is what it was or the action whose method was interrupted."
  },
  {
   "property": "C107",
   "status": "partial",
   "theorems": [
    "Verif.Fork.C107_once_partial",
    "Verif.Fork.C107_quiet_partial",
    "Verif.Fork.C107_exact_partial",
    "Verif.Fork.C107_returns_partial",
    "Verif.Fork.C107_stuck_violated",
    "Verif.Fork.C107_twice_violated",
    "Verif.Fork.C107_returns_violated",
    "Verif.Fork.C107_violated"
   ],
   "note": "False as stated: events queued at the fork are delivered by both processes, and a process forked while another thread flushes can never flush (both proved). True if at each fork the queue is empty and nobody flushes; in any one process nothing is delivered twice whatever forks."
  },
  {
   "property": "C108",
   "status": "proved",
   "theorems": [
    "Verif.Parents.C108_alone",
    "Verif.Parents.C108_blocks",
    "Verif.Parents.perThread_apart",
    "Verif.Parents.C108_default_violated",
    "Verif.Parents.C108_sequential"
   ],
   "note": "For any hooks that keep threads and loggers apart; perThread_apart shows that hooks keyed by thread and logger do. Blocks are made and entered at once and have no explicit parent (other actions may); calls are atomic. The last theorem shows that the default hooks give the same threads each other's parents (the documented limitation, see C63). C108_sequential: with the default hooks, the hook model and the world model agree on every active action and parent after any history"
  },
  {
   "property": "C109",
   "status": "partial",
   "theorems": [
    "Verif.Copying.C109_quiet_partial",
    "Verif.Copying.C109_violated",
    "Verif.Copying.C109_disable_violated",
    "Verif.Copying.C109_enable_violated",
    "Verif.Copying.C109_sequential",
    "Verif.Copying.C109_enable_registers",
    "Verif.Copying.C109_exact",
    "Verif.Copying.C109_needs_change"
   ],
   "note": "False of the code: the table of loggers is copied item by item, and a logger made or removed meanwhile makes the copy raise RuntimeError out of the call. Proved if nobody makes or removes one: collections are harmless, nothing raises, what was queued is delivered. Depends on CPython's weakref module as described in Model/Copying.lean. C109_sequential: left alone, a thread does what it does in the model of modes.  C109_enable_registers: once enable_async has returned, disable_async is registered for the exit. Exactly: flush() and enable_async() raise iff the number of loggers in the table at one of their own steps differs from that at the call; none of the three calls raises unless another thread makes or removes a logger meanwhile."
  },
  {
   "property": "C110",
   "status": "partial",
   "theorems": [
    "Verif.Global.C110_settled_partial",
    "Verif.Global.C110_flush_partial",
    "Verif.Global.C110_alone_partial",
    "Verif.Global.C110_some_partial",
    "Verif.Global.C110_stays",
    "Verif.Global.C110_violated",
    "Verif.Global.C110_lost_violated",
    "Verif.Global.C110_flush_violated",
    "Verif.Global.C110_none_violated",
    "Verif.Global.C110_new",
    "Verif.Global.C110_sequential"
   ],
   "note": "False of the code: get_context tests, makes and stores the context in separate steps; two threads that make the first loggers get two contexts, and no flush of the global one ever reaches the logger of the other (witnesses). Proved: the claim for one thread, and for any threads from a moment on at which the context exists and no thread is asking for it; None is returned only after set_context(None); loggers stay with their context. C110_new: a context made is a new one. One thread that leaves the context to get_context does what one context does (C110_sequential)."
  },
  {
   "property": "C111",
   "status": "partial",
   "theorems": [
    "Verif.SinkConc.C111_logger_partial",
    "Verif.SinkConc.C111_read_partial",
    "Verif.SinkConc.C111_read_calm_partial",
    "Verif.SinkConc.C111_never_more_partial",
    "Verif.SinkConc.C111_violated",
    "Verif.SinkConc.C111_lost_update_violated",
    "Verif.SinkConc.C111_lost_accumulator_violated",
    "Verif.SinkConc.C111_read_violated",
    "Verif.SinkConc.C111_sequential"
   ],
   "note": "False of the code: on_end looks up, makes and stores accumulators and counts in separate steps, and get_total_counts iterates over tables that grow (witnesses). Proved: nothing is counted twice; every event is counted for loggers whose events come one at a time, whatever other loggers do with the sink; reading then returns exactly the numbers, and does not raise while no event is the first of its kind. One thread alone does what the sequential model says (C111_sequential)."
  },
  {
   "property": "C112",
   "status": "proved",
   "theorems": [
    "Verif.C112_published",
    "Verif.C112_results",
    "Verif.C112_received",
    "Verif.C112_shared_order"
   ],
   "note": "Every hook returns. disable_async, which flushes, counts as a call of its own and is made in both runs. C112_shared_order: across loggers that share a sink the order does differ."
  },
  {
   "property": "C113",
   "status": "proved",
   "theorems": [
    "Verif.C113_transcript",
    "Verif.C113_delivered",
    "Verif.C113_received"
   ],
   "note": "Scripts are trees of statements; `Script.compile` makes them programs of the step model, `Script.lines` reads off the transcript without actions, clocks or sinks. Proved by induction over scripts for every calm environment; messages of exceptions are what the (abstract) formatting gives.  C113_received: what a sink with some hooks only receives."
  },
  {
   "property": "C114",
   "status": "partial",
   "theorems": [
    "Verif.ResConc.C114_nothing_invented_partial",
    "Verif.ResConc.C114_values_partial",
    "Verif.ResConc.C114_reads_partial",
    "Verif.ResConc.C114_count_partial",
    "Verif.ResConc.C114_violated",
    "Verif.ResConc.C114_lost_value_violated",
    "Verif.ResConc.C114_order_violated",
    "Verif.ResConc.C114_index_violated",
    "Verif.ResConc.C114_count_violated",
    "Verif.ResConc.C114_max_violated",
    "Verif.ResConc.C114_add_sequential",
    "Verif.ResConc.C114_read_sequential"
   ],
   "note": "False of the code: a value added while another thread sorts is appended to the array that the sorted copy replaces; or the data are marked as sorted although a value was appended since, and quantiles stay wrong; a reader can raise IndexError; two adders can count once, and the larger of two values can lose. Proved of every schedule: nothing is made up, counted or kept twice. Proved when no thread reads while another adds: all values are kept and all reads are right. Proved when one thread adds at a time, whatever is read: count and extremes. One thread alone does what the sequential model says (C114_add_sequential, C114_read_sequential)."
  },
  {
   "property": "C115",
   "status": "partial",
   "theorems": [
    "Verif.Story.C115_story_partial",
    "Verif.Story.C115_violated",
    "Verif.Story.C115_selected_partial",
    "Verif.Story.C115_text_partial"
   ],
   "note": "Proved for every program whose actions have no data named status_str, action_name or event_message (the names of the template's fields); messages with fields of their own are not compared. False without that: data of the application comes before the built-in fields, so an action made with status_str='success' that fails by an exception is written as a success.  C115_selected_partial: with any choice of events and any filters the file tells the lines selected. C115_text_partial has the condition on the script's text instead of on the states."
  },
  {
   "property": "C116",
   "status": "partial",
   "theorems": [
    "Verif.EwmaConc.C116_apart_partial",
    "Verif.EwmaConc.C116_accounts_partial",
    "Verif.EwmaConc.C116_nonneg_partial",
    "Verif.EwmaConc.C116_violated",
    "Verif.EwmaConc.C116_lost_violated",
    "Verif.EwmaConc.C116_doubled_violated",
    "Verif.EwmaConc.C116_add_violated",
    "Verif.EwmaConc.C116_negative_violated",
    "Verif.EwmaConc.C116_add_sequential",
    "Verif.EwmaConc.C116_read_sequential"
   ],
   "note": "The code breaks the claim: values added while another thread adds or reads are forgotten or counted twice, and two threads that read at once can make a rate negative. Proved: if no two calls overlap, accumulator and results are those of the same uses one after the other (so C55 applies) and everything is accounted for; as long as one thread at a time reads, no rate is negative, whatever the adding threads do. One thread alone does what the sequential model says (C116_add_sequential, C116_read_sequential)."
  },
  {
   "property": "C117",
   "status": "partial",
   "theorems": [
    "Verif.P2Conc.C117_once_partial",
    "Verif.P2Conc.C117_apart_partial",
    "Verif.P2Conc.C117_settled_partial",
    "Verif.P2Conc.C117_violated",
    "Verif.P2Conc.C117_lost_violated",
    "Verif.P2Conc.C117_forgotten_violated",
    "Verif.P2Conc.C117_raises_violated",
    "Verif.P2Conc.C117_read_violated",
    "Verif.P2Conc.C117_add_sequential",
    "Verif.P2Conc.C117_read_sequential"
   ],
   "note": "Holds when calls do not overlap, and also from then on if only the first values, as many as the estimator needs, were added without overlap; for any schedule nothing is invented or counted twice. False otherwise: two threads that both make the estimator lose values, and add or a read raises AttributeError. One thread alone does what the sequential model says (C117_add_sequential, C117_read_sequential)."
  },
  {
   "property": "C118",
   "status": "proved",
   "theorems": [
    "Verif.C118_no_effect",
    "Verif.C118_unbegun",
    "Verif.C118_since",
    "Verif.C118_during",
    "Verif.C118_grows"
   ],
   "note": "C118_since finds the call that began the action from the history alone (Item.begins) and gives the elapsed time exactly. exception and leaving the block may begin an action too, or fail before doing so; for them C118_during says the time counts from a clock reading made during that call."
  },
  {
   "property": "C119",
   "status": "partial",
   "theorems": [
    "Verif.Mk.C119_made_partial",
    "Verif.Mk.C119_refusal_partial",
    "Verif.Mk.C119_written_partial",
    "Verif.Mk.C119_ignored",
    "Verif.Mk.C119_dropped",
    "Verif.Mk.C119_violated",
    "Verif.Mk.C119_reading_violated",
    "Verif.Mk.C119_redirected_violated",
    "Verif.Mk.C119_refused_violated",
    "Verif.Mk.C119_exact"
   ],
   "note": "Exactly which arguments are accepted, and that streams that take bytes get every entry, is proved. The full statement is false: StringIO objects and binary files opened for reading are accepted and lose everything silently; compressed files are refused because their mode is a number.  C119_exact says which calls raise and what the stream has, for any entries."
  },
  {
   "property": "C120",
   "status": "partial",
   "theorems": [
    "Verif.Py.C120_shown_partial",
    "Verif.Py.C120_names",
    "Verif.Py.C120_tb_list_violated",
    "Verif.Py.C120_violated"
   ],
   "note": "Fails in Python 3 for exc_tb_list: its value is a list and its spec is 's', so every entry shows {exc_tb_list}. Proved for all other fields, and for that one in Python 2."
  },
  {
   "property": "C121",
   "status": "partial",
   "theorems": [
    "Verif.Sinks.C121_rate_total",
    "Verif.Sinks.C121_rate_cells_partial",
    "Verif.Sinks.C121_counter",
    "Verif.Sinks.C121_to_dict_partial",
    "Verif.Sinks.C121_repr_partial",
    "Verif.Sinks.C121_repr_shows",
    "Verif.Sinks.C121_violated",
    "Verif.Sinks.C121_rate_rows",
    "Verif.Sinks.C121_p2_partial",
    "Verif.Sinks.C121_p2_repr_partial",
    "Verif.Sinks.C121_ewma"
   ],
   "note": "RateSink and CounterSink count exactly the events whose getter returned. QuantileSink.to_dict and repr return exactly if the getter returned at least once for every action name seen, and then show the events whose getter returned; otherwise both raise (C121_violated), because the accumulator is stored before the getter is called and an empty one has no median. Not covered: EWMASink, P2 accumulators, loggers that share a name. C121_rate_rows: the same for loggers that share a name, for the one of them first heard of last. C121_p2_partial, C121_p2_repr_partial: the same with P2 accumulators; C121_ewma: EWMASink."
  },
  {
   "property": "C122",
   "status": "partial",
   "theorems": [
    "Verif.Attrs.C122_attributes_partial",
    "Verif.Attrs.C122_forwarded",
    "Verif.Attrs.C122_masked",
    "Verif.Attrs.C122_violated"
   ],
   "note": "Proved for every event the constructors make. False of copies: copy.copy and unpickling ask a new, empty instance for __setstate__, Event.__getattr__ then asks for self.action, which asks __getattr__ again, without end (RecursionError at every stack depth, C122_violated). C122_masked: an AttributeError inside the message property is reported as the action having no message. Python's attribute lookup is modelled from its documentation."
  },
  {
   "property": "C123",
   "status": "partial",
   "theorems": [
    "Verif.Actor.C123_stats_partial",
    "Verif.Actor.C123_time",
    "Verif.Actor.C123_time_nonneg",
    "Verif.Actor.C123_violated",
    "Verif.Actor.C123_sequential"
   ],
   "note": "The count and the start are right in every history; the time is, if no call ends the thread. The time of a call that ends the thread by an exception is not added although the call is counted (C123_violated). One thread at a time; numbers are exact. The model of the actor's threads comes to the same counts (C123_sequential)."
  },
  {
   "property": "C124",
   "status": "partial",
   "theorems": [
    "Verif.MsgRec.C124_messages_partial",
    "Verif.MsgRec.C124_series_partial",
    "Verif.MsgRec.C124_self",
    "Verif.MsgRec.C124_once",
    "Verif.MsgRec.C124_violated"
   ],
   "note": "proved when no message mentions itself at whatever remove; false otherwise, where the text grows with the stack (C124_self, C124_once, C124_violated)"
  },
  {
   "property": "C125",
   "status": "proved",
   "theorems": [
    "Verif.Sinks.C125_norm_times",
    "Verif.Sinks.C125_sorted",
    "Verif.Sinks.C125_shift"
   ],
   "note": "the rounding is a parameter: any function, for the order any monotone one with 0 at 0"
  },
  {
   "property": "C126",
   "status": "partial",
   "theorems": [
    "Verif.Wrapping.C126_changes",
    "Verif.Wrapping.C126_calls_partial",
    "Verif.Wrapping.C126_class_method_violated",
    "Verif.Wrapping.C126_diamond_violated"
   ],
   "note": "Names and levels hold for every target. That attributes still call what they called is proved for the targets of C62 and false for inherited class methods (C126_class_method_violated). Where classes in sight inherit from several others wrap_all can also change which function is called (C126_diamond_violated)."
  },
  {
   "property": "C127",
   "status": "partial",
   "theorems": [
    "Verif.Wrapping.C127_given_partial",
    "Verif.Wrapping.C127_raises",
    "Verif.Wrapping.C127_violated"
   ],
   "note": "False of the code: without a target both calls raise ValueError from everywhere (C127_raises). Only targets given as objects work."
  },
  {
   "property": "C128",
   "status": "partial",
   "theorems": [
    "Verif.Msg.C128_default_partial",
    "Verif.Msg.C128_violated",
    "Verif.ExcTpl.C128_template",
    "Verif.ExcTpl.C128_number",
    "Verif.ExcTpl.C128_percent_violated",
    "Verif.ExcTpl.C128_doubled"
   ],
   "note": "False for texts with braces: an exception message with an opening brace that is no field makes the event's message unreadable, and fields in it are filled in. Proved for texts without an opening brace (and without a closing one when there is data).  C128_template ties the text to the code's % template; directives other than %s, %r and %% are a parameter."
  },
  {
   "property": "C129",
   "status": "partial",
   "theorems": [
    "Verif.Debug.C129_reraise_partial",
    "Verif.Debug.C129_debugger",
    "Verif.Debug.C129_debugger_partial",
    "Verif.Debug.C129_violated",
    "Verif.Debug.C129_exact"
   ],
   "note": "reraise: proved except for iterables that are no tuples, which make every exception event raise TypeError. post_mortem: any true value is taken as Exception, so the claim holds exactly for the options that select no types or just the Exceptions. C129_exact: exactly for which pairs of options the claim holds."
  },
  {
   "property": "C130",
   "status": "proved",
   "theorems": [
    "Verif.FltMom.C130_mean",
    "Verif.FltMom.C130_extremes",
    "Verif.FltMom.C130_variance",
    "Verif.FltMom.C130_equal",
    "Verif.FltMom.run_exact",
    "Verif.Flt.ieee_fixed",
    "Verif.Flt.ieee_mono",
    "Verif.Flt.ieee_near"
   ],
   "note": "For every rounding with the properties of `Rounding`, which binary floating point of any precision is proved to have (`ieeeRounding`, `binary64`). run_exact: with exact arithmetic the model is that of C46/C47. Overflow and NaN are left out."
  },
  {
   "property": "C131",
   "status": "proved",
   "theorems": [
    "Verif.FltP2.C131_estimates",
    "Verif.FltP2.C131_exact"
   ],
   "note": "For every rounding. C131_exact: with exact arithmetic the model is that of C52."
  },
  {
   "property": "C132",
   "status": "partial",
   "theorems": [
    "Verif.FltQuant.C132_near_partial",
    "Verif.FltQuant.C132_violated",
    "Verif.FltQuant.resQuantile_exact",
    "Verif.FltQuant.C132_accurate"
   ],
   "note": "False as stated: C132_violated, the quantile 0.01 of [3.0, 3.0] is 2.9999999999999996. Proved instead: the quantile exists and is within 7uM + 4eta(M+1) of the bounds (u = 2^-53, eta = 2^-1075 for doubles, M a bound of the absolute values).  C132_accurate: it is also within that, plus the spread times u(n-1)+eta, of the exact interpolation at q*(n-1)."
  },
  {
   "property": "C133",
   "status": "partial",
   "theorems": [
    "Verif.FltEwma.C133_nonneg_partial",
    "Verif.FltEwma.C133_range_partial",
    "Verif.FltEwma.C133_short_partial",
    "Verif.FltEwma.C133_near_partial",
    "Verif.FltEwma.C133_violated",
    "Verif.FltEwma.C133_exact"
   ],
   "note": "False as stated: C133_violated, after 2^54 events in a second and one event a second for 2000 seconds the one-second rate is 0. Proved: rates of non-negative values are non-negative; the range holds exactly while windows are at most half of every period (C133_short_partial, in doubles with a correctly rounded exp); it always holds up to 9uM + 5eta, however many updates there are. C133_exact: with exact arithmetic the model is that of C55."
  },
  {
   "property": "C134",
   "status": "proved",
   "theorems": [
    "Verif.FltMom.C134_mean",
    "Verif.FltMom.C134_double"
   ],
   "note": "For every rounding with error bounds u and eta, and in doubles (u = 2^-53, eta = 2^-1075). Overflow is left out."
  },
  {
   "property": "C135",
   "status": "partial",
   "theorems": [
    "Verif.Quant.C135_reservoir_partial",
    "Verif.P2.C135_p2_partial",
    "Verif.Ewma.C135_ewma_partial",
    "Verif.Quant.C135_violated_reservoir",
    "Verif.Ewma.C135_violated_ewma",
    "Verif.Quant.C135_capped_partial",
    "Verif.Quant.C135_filling_partial"
   ],
   "note": "Proved for reservoirs without a cap and for P2 accumulators (every quantile, count, min, max, exceptions included), and for reads of moving averages within the interval after a first read. False for capped reservoirs (reading sorts the values, so that the same random draw replaces another one) and for moving averages (a read closes a window; repr is a read). Moments, rates and counters have no state that reading changes. C135_capped_partial, C135_filling_partial: what stays the same with a cap, and that everything does until it is reached."
  },
  {
   "property": "C136",
   "status": "partial",
   "theorems": [
    "Verif.P2.C136_partial",
    "Verif.P2.C136_no_ties_partial",
    "Verif.P2.C136_violated"
   ],
   "note": "proved against the algorithm written over arrays of positions and heights (Paper.estimates), with markers at the observation itself counted as above it; equal to the published rule when no marker is at an observation; with ties it differs: C136_violated"
  },
  {
   "property": "C137",
   "status": "proved",
   "theorems": [
    "Verif.Quant.C137_reservoir",
    "Verif.Quant.C137_spread",
    "Verif.Quant.C137_mirror",
    "Verif.Quant.C137_histogram",
    "Verif.P2.C137_p2",
    "Verif.P2.C137_p2_accumulator"
   ],
   "note": "exact arithmetic; moments are C103_units and C103_shape"
  },
  {
   "property": "C138",
   "status": "proved",
   "theorems": [
    "Verif.Py.C138_columns",
    "Verif.Py.C138_width",
    "Verif.Py.C138_lined_up"
   ],
   "note": "C138_columns gives every piece of the entry; C138_width: the width of a column is the larger of its own and its text's, with the text in one piece; C138_lined_up: as long as everything fits, what follows starts at the same place. The meaning of format specs is Python's (Model/PyFormat.lean); times in a column without a number of digits are left out (their text is the interpreter's); in Python 3 a bare exc_tb_list is left out (C120)."
  },
  {
   "property": "C139",
   "status": "partial",
   "theorems": [
    "Verif.P2Sink.C139_to_dict_partial",
    "Verif.P2Sink.C139_repr_partial",
    "Verif.P2Sink.C139_quartiles",
    "Verif.P2Sink.C139_breaks",
    "Verif.P2Sink.C139_violated"
   ],
   "note": "Holds when the quartiles (for repr: the median) are tracked, as by default, or while every pair has too few events for estimates. Otherwise both raise ValueError for good as soon as one pair has len(points)+2 events; C139_violated has a witness."
  },
  {
   "property": "C140",
   "status": "proved",
   "theorems": [
    "Verif.Totals.C140_rate",
    "Verif.Totals.C140_counter",
    "Verif.Totals.C140_quantile",
    "Verif.Totals.C140_blocks"
   ],
   "note": "Composes C113 (transcripts) with C57-C59. A CounterSink's counts per name are exact while fewer blocks ended than a bucket holds (1000 by default), upper bounds afterwards."
  },
  {
   "property": "C141",
   "status": "partial",
   "theorems": [
    "Verif.Wrapping.C141_own_partial",
    "Verif.Wrapping.C141_reads_partial",
    "Verif.Wrapping.C141_violated",
    "Verif.Wrapping.C141_class_method_violated",
    "Verif.Wrapping.C141_static_method_violated"
   ],
   "note": "Proved for targets whose functions are plain functions of the objects that show them (then nothing changes at all), and for targets without inheritance among the classes in sight (then every attribute reads the same). False otherwise: wrap_all stores what it read under the same name although it did not wrap it, so inherited functions hide those of later base classes, class methods are fixed to one class and static methods become plain functions."
  },
  {
   "property": "C142",
   "status": "partial",
   "theorems": [
    "Verif.FltActor.C142_bounds",
    "Verif.FltActor.C142_conf",
    "Verif.FltActor.C142_nine_partial",
    "Verif.FltActor.C142_double",
    "Verif.FltActor.C142_whole",
    "Verif.FltActor.C142_exact",
    "Verif.FltActor.C142_violated"
   ],
   "note": "The bounds hold for every rounding. Recovery takes eight successes with whole numbers of milliseconds (C142_whole), and at most nine with any interval of at least 2^-1000 and a maximum larger by a factor of 1 + 2^-40 (C142_double); eight are not enough for the interval 1 + 2^-52 (C142_violated). C142_exact ties the model to the actor of C26. Overflow to infinity is left out."
  },
  {
   "property": "C143",
   "status": "partial",
   "theorems": [
    "Verif.Reprs.C143_aggregate_sink",
    "Verif.Reprs.C143_aggregate_emitter",
    "Verif.Reprs.C143_rate_accumulator",
    "Verif.Reprs.C143_rate_sink_partial",
    "Verif.Reprs.C143_violated",
    "Verif.Reprs.C143_logger",
    "Verif.SinkRepr.C143_ewma_sink_partial",
    "Verif.SinkRepr.C143_ewma_returns"
   ],
   "note": "False as stated: the rate reprs raise ZeroDivisionError in the instant of creation, and a RateSink's when the clock was set back before its first event (C143_violated). Proved: exactly when the repr of a RateAccumulator raises, and of a RateSink for clocks not set back; otherwise the numbers read back from the text are the count and, within 1/20000, the rate; aggregates and loggers in full. Sinks that hold their own logger are left out.  The repr of an EWMASink is given the rates its accumulators return and the texts of periods and rates; missing: a logger called __all__ (C60)."
  },
  {
   "property": "C144",
   "status": "partial",
   "theorems": [
    "Verif.MakeSink.C144_made",
    "Verif.MakeSink.C144_takes",
    "Verif.MakeSink.C144_reservoir_partial",
    "Verif.MakeSink.C144_p2",
    "Verif.MakeSink.C144_p2_shown_partial",
    "Verif.MakeSink.C144_p2_nothing",
    "Verif.MakeSink.C144_default",
    "Verif.MakeSink.C144_violated",
    "Verif.MakeSink.C144_reservoir_is"
   ],
   "note": "False as stated: points are not checked when the sink is made (C144_violated). Proved: when a sink is made and with what; exactly for which points events are taken, and with the default accumulators exactly for which points to_dict returns; all of it for the default points."
  },
  {
   "property": "C145",
   "status": "partial",
   "theorems": [
    "Verif.Props.EmitConc.C145_once",
    "Verif.Props.EmitConc.C145_order",
    "Verif.Props.EmitConc.C145_durable",
    "Verif.Props.EmitConc.C145_quiet",
    "Verif.Props.EmitConc.C145_lands",
    "Verif.Props.EmitConc.C145_stale_whole",
    "Verif.Props.EmitConc.C145_stale_quiet_partial",
    "Verif.Props.EmitConc.C145_violated",
    "Verif.Props.EmitConc.C145_alone",
    "Verif.Props.EmitConc.C145_stale_lands"
   ],
   "note": "Interleaving model of emit_entry, flush and close with any number of threads. Without stale streams everything holds. With reopened streams entries still get into the file whole and exactly once, but not always before emit_entry returns nor in order (C145_violated). Stale writes that are retried land too (C145_stale_lands)."
  },
  {
   "property": "C146",
   "status": "partial",
   "theorems": [
    "Verif.Contexts.C146_apart",
    "Verif.Contexts.C146_others",
    "Verif.Contexts.C146_owner",
    "Verif.Contexts.C146_new",
    "Verif.Contexts.C146_once",
    "Verif.Contexts.C146_flush",
    "Verif.Contexts.C146_flush_delivers",
    "Verif.Contexts.C146_flush_notes",
    "Verif.Contexts.C146_context_notes",
    "Verif.Contexts.C146_call_notes",
    "Verif.Contexts.C146_single",
    "Verif.Contexts.C146_notes_violated"
   ],
   "note": "Proved for any number of contexts except for one kind of note: when leaving a with block fails to record the exception, the note goes to the global context rather than to the logger's own (C146_notes_violated; where it goes: C146_call_notes)."
  },
  {
   "property": "C147",
   "status": "partial",
   "theorems": [
    "Verif.Objects.C147_text",
    "Verif.Objects.C147_name",
    "Verif.Objects.C147_begin",
    "Verif.Objects.C147_warn",
    "Verif.Objects.C147_end",
    "Verif.Objects.C147_others",
    "Verif.Objects.C147_fails_partial",
    "Verif.Objects.C147_end_fails_partial",
    "Verif.Objects.C147_kept",
    "Verif.Objects.C147_violated"
   ],
   "note": "Proved: the text of each event, that text behaves as the ordinary call, that a failing object's exception is what the call raises with the event neither recorded nor published, and that the guarantees keep holding in all histories with such calls. False of the code (C147_violated): that a failing call has no other effect. The data passed with it is kept, and a failing success or failure on an action that was not begun begins it and publishes that begin event; C147_fails_partial and C147_end_fails_partial say exactly what is left behind."
  },
  {
   "property": "C148",
   "status": "partial",
   "theorems": [
    "Verif.Stack.C148_covers",
    "Verif.Stack.C148_ids",
    "Verif.Stack.C148_published",
    "Verif.Stack.C148_received",
    "Verif.Stack.C148_places",
    "Verif.Stack.C148_exceptions",
    "Verif.Stack.C148_begin_once",
    "Verif.Stack.C148_bound",
    "Verif.Stack.C148_delivered",
    "Verif.Stack.C148_flush",
    "Verif.Stack.C148_order_partial",
    "Verif.Stack.C148_violated",
    "Verif.Stack.C148_flush_violated"
   ],
   "note": "Everything but the order is proved for all re-entrant histories. The order is violated as stated: a sink told of a begin that ends the action, or (with a queue) merely flushes, makes the sinks after it hear of the end first (C148_violated, C148_flush_violated). C148_order_partial proves it for histories in which no end is published while the begin of its action is still queued or being handed out. C148_covers: the world model is the special case in which what is called returns or raises at once."
  },
  {
   "property": "C149",
   "status": "partial",
   "theorems": [
    "Verif.MakeStats.C149_made",
    "Verif.MakeStats.C149_rate_partial",
    "Verif.MakeStats.C149_rate_refuses",
    "Verif.MakeStats.C149_counter_partial",
    "Verif.MakeStats.C149_counter_refuses",
    "Verif.MakeStats.C149_ewma_partial",
    "Verif.MakeStats.C149_ewma_refuses",
    "Verif.MakeStats.C149_violated"
   ],
   "note": "False as stated: sample_size, threshold and interval are not looked at before the first event (C149_violated). Proved: when a sink is made and with what getter; exactly for which options events are taken (the tables are then those of C57, C58, C71, C72 and C60), and that otherwise every event raises and nothing is counted."
  },
  {
   "property": "C150",
   "status": "proved",
   "theorems": [
    "Verif.FltMom.C150_variance",
    "Verif.FltMom.C150_double"
   ],
   "note": "C150_variance: for every rounding with relative error u (and absolute error eta below it); C150_double: for IEEE doubles. The bound grows with the product of spread and size, not with the square of the size."
  },
  {
   "property": "C151",
   "status": "partial",
   "theorems": [
    "Verif.FltHist.C151_cells_partial",
    "Verif.FltHist.getHistogram_exact",
    "Verif.FltHist.C151_violated"
   ],
   "note": "False of the counts: the share of the point 1/3 (a bit less, as a double) of three values is less than one, but the first cell counts two (C151_violated). Proved: all the rest, and counts within 1 + 2un + eta(n+1) of the share (u = 2^-53, eta = 2^-1075 for doubles). getHistogram_exact: with exact arithmetic the model is that of C73."
  },
  {
   "property": "C152",
   "status": "proved",
   "theorems": [
    "Verif.Conc.C152_no_wait"
   ],
   "note": "In the small-step model of C23, in which publishing is one atomic append to a bounded deque and flush holds the lock from its first preflush hook to its end."
  },
  {
   "property": "C153",
   "status": "proved",
   "theorems": [
    "Verif.FRate.C153_raises",
    "Verif.FRate.C153_rate",
    "Verif.FRate.C153_totals",
    "Verif.FRate.C153_grand",
    "Verif.FRate.C153_exact"
   ],
   "note": "Every operation is rounded to the nearest double, ties to even, with gradual underflow; overflow and NaN are left out. C153_totals holds for every monotone rounding."
  },
  {
   "property": "C154",
   "status": "proved",
   "theorems": [
    "Verif.PyRepr.C154_text",
    "Verif.PyRepr.C154_action",
    "Verif.PyRepr.C154_actions_alike",
    "Verif.PyRepr.C154_event",
    "Verif.PyRepr.C154_events_alike",
    "Verif.PyRepr.C154_levels_alike",
    "Verif.PyRepr.C154_plain"
   ],
   "note": "repr of a text is CPython 3's, with str.isprintable beyond ASCII as a parameter; the reader of literals (Spec/PyLiteral.lean) is independent of how they are written. Values of levels are integers."
  },
  {
   "property": "C155",
   "status": "proved",
   "theorems": [
    "Verif.SinkRepr.C155_sink",
    "Verif.SinkRepr.C155_emitter",
    "Verif.SinkRepr.C155_formatter",
    "Verif.SinkRepr.C155_logger"
   ],
   "note": "What evaluating the repr of a filter, a formatter or a stream does is a parameter: a text, an Exception or another exception. repr of a template as in C154."
  },
  {
   "property": "C156",
   "status": "proved",
   "theorems": [
    "Verif.SelfRepr.C156_returns",
    "Verif.SelfRepr.C156_length",
    "Verif.SelfRepr.C156_one",
    "Verif.SelfRepr.C156_linear_violated",
    "Verif.SelfRepr.C156_none"
   ],
   "note": "Every __repr__ written in Python takes one frame; a sink is known by the texts it puts around the repr of its logger. C156_linear_violated refutes a bound in proportion to the recursion limit when two sinks show the logger."
  }
 ]
}