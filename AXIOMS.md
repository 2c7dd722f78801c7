# Axioms of each theorem in MANIFEST.json

As reported by Lean's axiom collector (`#print axioms`).


## none

* C108: `Verif.Parents.perThread_apart`, `Verif.Parents.C108_default_violated`
* C30: `Verif.Signal.C30_force_displaces`, `Verif.Signal.C30_off_main`
* C31: `Verif.Note.C31_violated`
* C32: `Verif.Lvl.C32_eq_trans_violated`, `Verif.Lvl.C32_consistent_violated`, `Verif.Lvl.C32_hash_violated`
* C39: `Verif.Json.C39_surrogates_violated`
* C42: `Verif.Emit.C42_short_write_violated`, `Verif.Emit.C42_error_escapes_violated`, `Verif.Emit.C42_partial_write_violated`, `Verif.Emit.C42_lost_buffer_violated`
* C67: `Verif.Sens.C67_violated`, `Verif.Sens.C67_template_partial`
* C90: `Verif.Files.C90_make_violated`
* C91: `Verif.Utf8.C91_violated`
* C94: `Verif.Frames.C94_violated`, `Verif.Frames.C94_subclass_violated`

## propext

* C102: `Verif.Shared.C102_two_begins_violated`, `Verif.Shared.C102_end_first_violated`, `Verif.Shared.C102_same_end_violated`, `Verif.Shared.C102_violated`
* C106: `Verif.Interrupt.C106_before`, `Verif.Interrupt.C106_raised`, `Verif.Interrupt.C106_enter_violated`, `Verif.Interrupt.C106_exit_violated`, `Verif.Interrupt.C106_violated`
* C107: `Verif.Fork.C107_twice_violated`
* C108: `Verif.Parents.C108_alone`
* C111: `Verif.SinkConc.C111_violated`, `Verif.SinkConc.C111_lost_update_violated`, `Verif.SinkConc.C111_lost_accumulator_violated`, `Verif.SinkConc.C111_read_violated`
* C119: `Verif.Mk.C119_ignored`
* C122: `Verif.Attrs.C122_masked`, `Verif.Attrs.C122_violated`
* C129: `Verif.Debug.C129_debugger`, `Verif.Debug.C129_violated`
* C149: `Verif.MakeStats.C149_made`
* C30: `Verif.Signal.C30_user_handler`, `Verif.Signal.C30_results`, `Verif.Signal.C30_not_asked`
* C31: `Verif.Note.C31_note_partial`
* C34: `Verif.Lvl.C34_negative_delta_wraps`
* C35: `Verif.Sens.C35_comments`, `Verif.Sens.C35_zero_violated`
* C36: `Verif.Sens.C36_exception_selects_nothing`
* C38: `Verif.Sens.C38_precedence`
* C42: `Verif.Emit.C42_raises_only_partial`, `Verif.Emit.C42_raises_exact`, `Verif.Emit.C42_quiet_partial`
* C90: `Verif.Files.C90_make`, `Verif.Files.C90_overwrite_violated`
* C91: `Verif.Utf8.C91_append`, `Verif.Utf8.C91_utf16_violated`, `Verif.Utf8.C91_plain`
* C93: `Verif.Enc.C93_returns_violated`, `Verif.Enc.C93_answer`

## Quot.sound, propext

* C03: `Verif.exception_recorded_violated`
* C04: `Verif.with_normal_violated`, `Verif.with_exception_violated`
* C05: `Verif.active_restored_violated`, `Verif.active_restored_parent_violated`, `Verif.active_restored_failure_violated`, `Verif.block_is_parent`
* C06: `Verif.parent_depth_counts`, `Verif.parent_depth_eq`, `Verif.parent_depth_cyclic`
* C09: `Verif.C09_violated`
* C100: `Verif.Modes.C100_bound_partial`, `Verif.Modes.C100_quiet_partial`, `Verif.Modes.C100_context_partial`, `Verif.Modes.C100_stranded_violated`, `Verif.Modes.C100_made_violated`
* C101: `Verif.Weak.C101_kept_partial`, `Verif.Weak.C101_once_partial`, `Verif.Weak.C101_violated`, `Verif.Weak.C101_nothing_lost`, `Verif.Weak.C101_removed`, `Verif.Weak.C101_lost_exact`, `Verif.Weak.C101_flush_exact`, `Verif.Weak.C101_sequential`
* C102: `Verif.Shared.C102_sequential`, `Verif.Shared.C102_asked_partial`
* C104: `Verif.Conc.C104_delivered`, `Verif.Conc.C104_returns`
* C105: `Verif.Conc.C105_lost`, `Verif.Conc.C105_released`, `Verif.Conc.C105_recovers`
* C106: `Verif.Interrupt.C106_uninterrupted`
* C107: `Verif.Fork.C107_violated`
* C109: `Verif.Copying.C109_quiet_partial`, `Verif.Copying.C109_violated`, `Verif.Copying.C109_disable_violated`, `Verif.Copying.C109_enable_violated`, `Verif.Copying.C109_sequential`, `Verif.Copying.C109_enable_registers`, `Verif.Copying.C109_exact`
* C11: `Verif.Guid.C11_order_violated`
* C110: `Verif.Global.C110_settled_partial`, `Verif.Global.C110_flush_partial`, `Verif.Global.C110_alone_partial`, `Verif.Global.C110_some_partial`, `Verif.Global.C110_stays`, `Verif.Global.C110_violated`, `Verif.Global.C110_lost_violated`, `Verif.Global.C110_flush_violated`, `Verif.Global.C110_none_violated`, `Verif.Global.C110_new`, `Verif.Global.C110_sequential`
* C111: `Verif.SinkConc.C111_logger_partial`, `Verif.SinkConc.C111_read_partial`, `Verif.SinkConc.C111_read_calm_partial`, `Verif.SinkConc.C111_never_more_partial`, `Verif.SinkConc.C111_sequential`
* C112: `Verif.C112_published`, `Verif.C112_results`, `Verif.C112_shared_order`
* C114: `Verif.ResConc.C114_nothing_invented_partial`, `Verif.ResConc.C114_count_partial`, `Verif.ResConc.C114_add_sequential`, `Verif.ResConc.C114_read_sequential`
* C117: `Verif.P2Conc.C117_once_partial`, `Verif.P2Conc.C117_apart_partial`, `Verif.P2Conc.C117_settled_partial`, `Verif.P2Conc.C117_violated`, `Verif.P2Conc.C117_lost_violated`, `Verif.P2Conc.C117_forgotten_violated`, `Verif.P2Conc.C117_raises_violated`, `Verif.P2Conc.C117_read_violated`, `Verif.P2Conc.C117_read_sequential`
* C118: `Verif.C118_no_effect`
* C119: `Verif.Mk.C119_made_partial`, `Verif.Mk.C119_refusal_partial`, `Verif.Mk.C119_written_partial`, `Verif.Mk.C119_dropped`, `Verif.Mk.C119_exact`
* C12: `Verif.end_at_most_once_violated`
* C121: `Verif.Sinks.C121_rate_total`
* C123: `Verif.Actor.C123_stats_partial`, `Verif.Actor.C123_time`, `Verif.Actor.C123_sequential`
* C125: `Verif.Sinks.C125_norm_times`, `Verif.Sinks.C125_shift`
* C126: `Verif.Wrapping.C126_changes`, `Verif.Wrapping.C126_calls_partial`, `Verif.Wrapping.C126_class_method_violated`, `Verif.Wrapping.C126_diamond_violated`
* C127: `Verif.Wrapping.C127_given_partial`, `Verif.Wrapping.C127_raises`, `Verif.Wrapping.C127_violated`
* C129: `Verif.Debug.C129_reraise_partial`
* C13: `Verif.sinks_new`
* C135: `Verif.Quant.C135_reservoir_partial`, `Verif.Quant.C135_capped_partial`, `Verif.Quant.C135_filling_partial`
* C138: `Verif.Py.C138_width`
* C140: `Verif.Totals.C140_blocks`
* C141: `Verif.Wrapping.C141_own_partial`, `Verif.Wrapping.C141_reads_partial`, `Verif.Wrapping.C141_violated`, `Verif.Wrapping.C141_class_method_violated`, `Verif.Wrapping.C141_static_method_violated`
* C144: `Verif.MakeSink.C144_made`, `Verif.MakeSink.C144_reservoir_is`
* C145: `Verif.Props.EmitConc.C145_once`, `Verif.Props.EmitConc.C145_order`, `Verif.Props.EmitConc.C145_lands`
* C146: `Verif.Contexts.C146_new`, `Verif.Contexts.C146_flush_notes`, `Verif.Contexts.C146_context_notes`, `Verif.Contexts.C146_call_notes`, `Verif.Contexts.C146_single`, `Verif.Contexts.C146_notes_violated`
* C147: `Verif.Objects.C147_text`, `Verif.Objects.C147_name`, `Verif.Objects.C147_begin`, `Verif.Objects.C147_warn`, `Verif.Objects.C147_fails_partial`, `Verif.Objects.C147_end_fails_partial`, `Verif.Objects.C147_violated`
* C148: `Verif.Stack.C148_violated`, `Verif.Stack.C148_flush_violated`
* C149: `Verif.MakeStats.C149_rate_partial`, `Verif.MakeStats.C149_counter_partial`, `Verif.MakeStats.C149_counter_refuses`
* C15: `Verif.sink_isolation_violated`, `Verif.sink_error_reaches_application`, `Verif.async_calls_silent_partial`, `Verif.sink_error_exact`
* C152: `Verif.Conc.C152_no_wait`
* C154: `Verif.PyRepr.C154_plain`
* C21: `Verif.enable_async_violated`, `Verif.enable_async_disables`, `Verif.enable_async_partial`
* C23: `Verif.Conc.concurrent_order`, `Verif.Conc.concurrent_at_most_once`, `Verif.Conc.concurrent_accounting`, `Verif.Conc.concurrent_complete`, `Verif.Conc.concurrent_exclusive`, `Verif.Conc.concurrent_pop_nonempty`, `Verif.Conc.concurrent_progress`
* C24: `Verif.Reentrant.reentrant_flush_returns_partial`, `Verif.Reentrant.reentrant_flush_returns_violated`, `Verif.Reentrant.reentrant_order_violated`
* C25: `Verif.preflush_failure_noted`
* C28: `Verif.Actor.C28_restart`, `Verif.Actor.C28_requested_partial`
* C29: `Verif.Actor.C29_exception_stays_partial`
* C30: `Verif.Signal.C30_default`, `Verif.Signal.C30_installed`
* C31: `Verif.Note.C31_format_never_raises`, `Verif.Note.C31_exact`
* C36: `Verif.Sens.C36_unknown`
* C37: `Verif.Sens.C37_format`
* C39: `Verif.Json.C39_plain`
* C41: `Verif.Emit.C41_aggregate_emitter`, `Verif.Emit.C41_aggregate_sink`
* C42: `Verif.Emit.C42_whole_partial`, `Verif.Emit.C42_file_partial`, `Verif.Emit.C42_pieces_partial`
* C43: `Verif.Emit.C43_split_partial`, `Verif.Emit.C43_file_partial`, `Verif.Emit.unbordered_singleton`, `Verif.Emit.unbordered_pair`
* C47: `Verif.Accum.C47_shape_partial`, `Verif.Accum.C47_second_violated`
* C48: `Verif.Accum.C48_shape_partial`, `Verif.Accum.C48_min_partial`, `Verif.Accum.C48_second_violated`
* C49: `Verif.Accum.C49_sum`
* C50: `Verif.Quant.C50_count_min_max`, `Verif.Quant.C50_raises`, `Verif.Quant.C50_add_ok`
* C51: `Verif.Quant.C51_reservoir_partial`, `Verif.Quant.C51_below_cap_partial`, `Verif.Quant.C51_extremes_partial`
* C52: `Verif.P2.C52_too_few`
* C56: `Verif.Sinks.C56_tracked`, `Verif.Sinks.C56_default`, `Verif.Sinks.C56_empty`, `Verif.Sinks.C56_estimate`
* C57: `Verif.Sinks.C57_grand_total`, `Verif.Sinks.C57_prevails`
* C60: `Verif.Sinks.C60_violated`
* C61: `Verif.wrapped_disabled`, `Verif.WrapSample.wrapped_result_violated`
* C62: `Verif.Wrapping.wrap_all_sound`, `Verif.Wrapping.Demo.inherited_function_violated`, `Verif.Wrapping.Demo.static_method_violated`, `Verif.Wrapping.Demo.wrap_all_depth_violated`
* C63: `Verif.concurrent_blocks_other`, `Verif.concurrent_blocks_violated`
* C65: `Verif.warning_published_at_once`
* C66: `Verif.bad_notes_flush_violated`, `Verif.with_exception_violated`
* C70: `Verif.C70_begin`, `Verif.C70_enter`, `Verif.C70_end`, `Verif.C70_texts`, `Verif.C70_own_data_violated`
* C71: `Verif.Sinks.C71_parts`, `Verif.Sinks.C71_reads`
* C78: `Verif.SyncConc.C78_at_most_once`, `Verif.SyncConc.C78_exactly_once`, `Verif.SyncConc.C78_order`, `Verif.SyncConc.C78_sequential`
* C79: `Verif.SyncConc.C79_registered`
* C80: `Verif.SyncConc.C80_once_partial`, `Verif.SyncConc.C80_added_twice_violated`, `Verif.SyncConc.C80_replaced_violated`, `Verif.SyncConc.C80_add_sequential`, `Verif.SyncConc.C80_set_sequential`, `Verif.SyncConc.C80_adding_partial`
* C83: `Verif.C83_only`
* C87: `Verif.Tmpl.C87_never_raises_partial`, `Verif.Tmpl.C87_valid`, `Verif.Tmpl.C87_raises`, `Verif.Tmpl.C87_at_once`, `Verif.Tmpl.C87_exact`
* C90: `Verif.Files.C90_append_partial`, `Verif.Files.C90_overwrite_partial`, `Verif.Files.C90_emptied_partial`
* C91: `Verif.Utf8.C91_decode_partial`, `Verif.Utf8.C91_utf16`
* C93: `Verif.Enc.C93_made`, `Verif.Enc.C93_emits`, `Verif.Enc.C93_lenient`, `Verif.Enc.C93_errors`
* C94: `Verif.Frames.C94_module_partial`, `Verif.Frames.C94_name_partial`, `Verif.Frames.C94_deep`
* C96: `Verif.Iso.C96_violated`, `Verif.Iso.C96_wall`, `Verif.Iso.C96_offset_exact`
* C98: `Verif.C98_normal`, `Verif.C98_lost`, `Verif.C98_violated`
* C99: `Verif.Modes.C99_at_most_once`, `Verif.Modes.C99_nothing_lost`, `Verif.Modes.C99_synchronous`, `Verif.Modes.C99_sequential`

## Classical.choice, Quot.sound, propext

* C01: `Verif.begin_at_most_once`, `Verif.no_end_before_begin`, `Verif.end_follows_begin`
* C02: `Verif.with_block_one_end`, `Verif.with_block_delivered`, `Verif.with_statement_one_end`
* C03: `Verif.exception_recorded_partial`, `Verif.exception_recorded_exact`
* C04: `Verif.with_exception_partial`, `Verif.with_normal_partial`, `Verif.with_normal_exact`, `Verif.with_exception_exact`
* C05: `Verif.active_restored_partial`, `Verif.active_restored_exact`
* C07: `Verif.status_follows_calls_partial`, `Verif.status_last_call_partial`, `Verif.status_unchanged`, `Verif.C07_exact`, `Verif.C07_works_partial`, `Verif.C07_violated`
* C08: `Verif.duration_before_end`, `Verif.duration_outside_block`, `Verif.duration_nonneg`, `Verif.duration_of_status_call`, `Verif.duration_of_exit`, `Verif.duration_unchanged`, `Verif.duration_exact`
* C09: `Verif.data_last_writer_partial`, `Verif.data_last_writer_any_partial`, `Verif.C09_exact`, `Verif.C09_stores_partial`
* C10: `Verif.ids_unique`, `Verif.ids_increase`
* C102: `Verif.Shared.C102_ends_partial`, `Verif.Shared.C102_warnings_partial`, `Verif.Shared.C102_begins_partial`, `Verif.Shared.C102_begun_first_partial`, `Verif.Shared.C102_statuses_partial`, `Verif.Shared.C102_last_partial`
* C103: `Verif.Mom.C103_mean`, `Verif.Mom.C103_variance_zero`, `Verif.Mom.C103_popoviciu`, `Verif.Mom.C103_pearson`, `Verif.Mom.C103_units`, `Verif.Mom.C103_shape`
* C106: `Verif.Interrupt.C106_whole`, `Verif.Interrupt.C106_complete_partial`, `Verif.Interrupt.C106_active_partial`, `Verif.Interrupt.C106_repaired_partial`, `Verif.Interrupt.C106_recorded_partial`, `Verif.Interrupt.C106_sequential`, `Verif.Interrupt.C106_block_exact`, `Verif.Interrupt.C106_active_either`
* C107: `Verif.Fork.C107_once_partial`, `Verif.Fork.C107_quiet_partial`, `Verif.Fork.C107_exact_partial`, `Verif.Fork.C107_returns_partial`, `Verif.Fork.C107_stuck_violated`, `Verif.Fork.C107_returns_violated`
* C108: `Verif.Parents.C108_blocks`, `Verif.Parents.C108_sequential`
* C109: `Verif.Copying.C109_needs_change`
* C11: `Verif.Guid.C11_unique_partial`, `Verif.Guid.C11_order_partial`, `Verif.Guid.C11_order_24_partial`, `Verif.Guid.C11_order_exact`
* C112: `Verif.C112_received`
* C113: `Verif.C113_transcript`, `Verif.C113_delivered`, `Verif.C113_received`
* C114: `Verif.ResConc.C114_values_partial`, `Verif.ResConc.C114_reads_partial`, `Verif.ResConc.C114_violated`, `Verif.ResConc.C114_lost_value_violated`, `Verif.ResConc.C114_order_violated`, `Verif.ResConc.C114_index_violated`, `Verif.ResConc.C114_count_violated`, `Verif.ResConc.C114_max_violated`
* C115: `Verif.Story.C115_story_partial`, `Verif.Story.C115_violated`, `Verif.Story.C115_selected_partial`, `Verif.Story.C115_text_partial`
* C116: `Verif.EwmaConc.C116_apart_partial`, `Verif.EwmaConc.C116_accounts_partial`, `Verif.EwmaConc.C116_nonneg_partial`, `Verif.EwmaConc.C116_violated`, `Verif.EwmaConc.C116_lost_violated`, `Verif.EwmaConc.C116_doubled_violated`, `Verif.EwmaConc.C116_add_violated`, `Verif.EwmaConc.C116_negative_violated`, `Verif.EwmaConc.C116_add_sequential`, `Verif.EwmaConc.C116_read_sequential`
* C117: `Verif.P2Conc.C117_add_sequential`
* C118: `Verif.C118_unbegun`, `Verif.C118_since`, `Verif.C118_during`, `Verif.C118_grows`
* C119: `Verif.Mk.C119_violated`, `Verif.Mk.C119_reading_violated`, `Verif.Mk.C119_redirected_violated`, `Verif.Mk.C119_refused_violated`
* C12: `Verif.end_at_most_once_partial`, `Verif.C12_exact`, `Verif.C12_once_iff`, `Verif.C12_block`
* C120: `Verif.Py.C120_shown_partial`, `Verif.Py.C120_names`, `Verif.Py.C120_tb_list_violated`, `Verif.Py.C120_violated`
* C121: `Verif.Sinks.C121_rate_cells_partial`, `Verif.Sinks.C121_counter`, `Verif.Sinks.C121_to_dict_partial`, `Verif.Sinks.C121_repr_partial`, `Verif.Sinks.C121_repr_shows`, `Verif.Sinks.C121_violated`, `Verif.Sinks.C121_rate_rows`, `Verif.Sinks.C121_p2_partial`, `Verif.Sinks.C121_p2_repr_partial`, `Verif.Sinks.C121_ewma`
* C122: `Verif.Attrs.C122_attributes_partial`, `Verif.Attrs.C122_forwarded`
* C123: `Verif.Actor.C123_time_nonneg`, `Verif.Actor.C123_violated`
* C124: `Verif.MsgRec.C124_messages_partial`, `Verif.MsgRec.C124_series_partial`, `Verif.MsgRec.C124_self`, `Verif.MsgRec.C124_once`, `Verif.MsgRec.C124_violated`
* C125: `Verif.Sinks.C125_sorted`
* C128: `Verif.Msg.C128_default_partial`, `Verif.Msg.C128_violated`, `Verif.ExcTpl.C128_template`, `Verif.ExcTpl.C128_number`, `Verif.ExcTpl.C128_percent_violated`, `Verif.ExcTpl.C128_doubled`
* C129: `Verif.Debug.C129_debugger_partial`, `Verif.Debug.C129_exact`
* C13: `Verif.registry_ok`, `Verif.sinks_requested`
* C130: `Verif.FltMom.C130_mean`, `Verif.FltMom.C130_extremes`, `Verif.FltMom.C130_variance`, `Verif.FltMom.C130_equal`, `Verif.FltMom.run_exact`, `Verif.Flt.ieee_fixed`, `Verif.Flt.ieee_mono`, `Verif.Flt.ieee_near`
* C131: `Verif.FltP2.C131_estimates`, `Verif.FltP2.C131_exact`
* C132: `Verif.FltQuant.C132_near_partial`, `Verif.FltQuant.C132_violated`, `Verif.FltQuant.resQuantile_exact`, `Verif.FltQuant.C132_accurate`
* C133: `Verif.FltEwma.C133_nonneg_partial`, `Verif.FltEwma.C133_range_partial`, `Verif.FltEwma.C133_short_partial`, `Verif.FltEwma.C133_near_partial`, `Verif.FltEwma.C133_violated`, `Verif.FltEwma.C133_exact`
* C134: `Verif.FltMom.C134_mean`, `Verif.FltMom.C134_double`
* C135: `Verif.P2.C135_p2_partial`, `Verif.Ewma.C135_ewma_partial`, `Verif.Quant.C135_violated_reservoir`, `Verif.Ewma.C135_violated_ewma`
* C136: `Verif.P2.C136_partial`, `Verif.P2.C136_no_ties_partial`, `Verif.P2.C136_violated`
* C137: `Verif.Quant.C137_reservoir`, `Verif.Quant.C137_spread`, `Verif.Quant.C137_mirror`, `Verif.Quant.C137_histogram`, `Verif.P2.C137_p2`, `Verif.P2.C137_p2_accumulator`
* C138: `Verif.Py.C138_columns`, `Verif.Py.C138_lined_up`
* C139: `Verif.P2Sink.C139_to_dict_partial`, `Verif.P2Sink.C139_repr_partial`, `Verif.P2Sink.C139_quartiles`, `Verif.P2Sink.C139_breaks`, `Verif.P2Sink.C139_violated`
* C14: `Verif.sync_publish`, `Verif.sync_call`
* C140: `Verif.Totals.C140_rate`, `Verif.Totals.C140_counter`, `Verif.Totals.C140_quantile`
* C142: `Verif.FltActor.C142_bounds`, `Verif.FltActor.C142_conf`, `Verif.FltActor.C142_nine_partial`, `Verif.FltActor.C142_double`, `Verif.FltActor.C142_whole`, `Verif.FltActor.C142_exact`, `Verif.FltActor.C142_violated`
* C143: `Verif.Reprs.C143_aggregate_sink`, `Verif.Reprs.C143_aggregate_emitter`, `Verif.Reprs.C143_rate_accumulator`, `Verif.Reprs.C143_rate_sink_partial`, `Verif.Reprs.C143_violated`, `Verif.Reprs.C143_logger`, `Verif.SinkRepr.C143_ewma_sink_partial`, `Verif.SinkRepr.C143_ewma_returns`
* C144: `Verif.MakeSink.C144_takes`, `Verif.MakeSink.C144_reservoir_partial`, `Verif.MakeSink.C144_p2`, `Verif.MakeSink.C144_p2_shown_partial`, `Verif.MakeSink.C144_p2_nothing`, `Verif.MakeSink.C144_default`, `Verif.MakeSink.C144_violated`
* C145: `Verif.Props.EmitConc.C145_durable`, `Verif.Props.EmitConc.C145_quiet`, `Verif.Props.EmitConc.C145_stale_whole`, `Verif.Props.EmitConc.C145_stale_quiet_partial`, `Verif.Props.EmitConc.C145_violated`, `Verif.Props.EmitConc.C145_alone`, `Verif.Props.EmitConc.C145_stale_lands`
* C146: `Verif.Contexts.C146_apart`, `Verif.Contexts.C146_others`, `Verif.Contexts.C146_owner`, `Verif.Contexts.C146_once`, `Verif.Contexts.C146_flush`, `Verif.Contexts.C146_flush_delivers`
* C147: `Verif.Objects.C147_end`, `Verif.Objects.C147_others`, `Verif.Objects.C147_kept`
* C148: `Verif.Stack.C148_covers`, `Verif.Stack.C148_ids`, `Verif.Stack.C148_published`, `Verif.Stack.C148_received`, `Verif.Stack.C148_places`, `Verif.Stack.C148_exceptions`, `Verif.Stack.C148_begin_once`, `Verif.Stack.C148_bound`, `Verif.Stack.C148_delivered`, `Verif.Stack.C148_flush`, `Verif.Stack.C148_order_partial`
* C149: `Verif.MakeStats.C149_rate_refuses`, `Verif.MakeStats.C149_ewma_partial`, `Verif.MakeStats.C149_ewma_refuses`, `Verif.MakeStats.C149_violated`
* C15: `Verif.sync_publish_fail_partial`
* C150: `Verif.FltMom.C150_variance`, `Verif.FltMom.C150_double`
* C151: `Verif.FltHist.C151_cells_partial`, `Verif.FltHist.getHistogram_exact`, `Verif.FltHist.C151_violated`
* C153: `Verif.FRate.C153_raises`, `Verif.FRate.C153_rate`, `Verif.FRate.C153_totals`, `Verif.FRate.C153_grand`, `Verif.FRate.C153_exact`
* C154: `Verif.PyRepr.C154_text`, `Verif.PyRepr.C154_action`, `Verif.PyRepr.C154_actions_alike`, `Verif.PyRepr.C154_event`, `Verif.PyRepr.C154_events_alike`, `Verif.PyRepr.C154_levels_alike`
* C155: `Verif.SinkRepr.C155_sink`, `Verif.SinkRepr.C155_emitter`, `Verif.SinkRepr.C155_formatter`, `Verif.SinkRepr.C155_logger`
* C156: `Verif.SelfRepr.C156_returns`, `Verif.SelfRepr.C156_length`, `Verif.SelfRepr.C156_one`, `Verif.SelfRepr.C156_linear_violated`, `Verif.SelfRepr.C156_none`
* C16: `Verif.async_delivery`, `Verif.async_sink_fifo`, `Verif.flush_delivers`
* C17: `Verif.queue_bounded`, `Verif.queue_keeps_newest`
* C18: `Verif.mode_switch_reorders_violated`, `Verif.delivery_order_partial`, `Verif.C18_call`, `Verif.C18_exact`, `Verif.C18_overtakes`
* C19: `Verif.flush_outcome`, `Verif.failing_delivery`, `Verif.never_more_often`
* C20: `Verif.ctx_flush_order`, `Verif.ctx_flush_reaches_all`, `Verif.ctx_flush_isolates`, `Verif.ctx_flush_others`
* C22: `Verif.disable_async_delivers`
* C23: `Verif.Conc.C23_sequential`
* C24: `Verif.Reentrant.reentrant_delivery_partial`, `Verif.Reentrant.reentrant_order_partial`, `Verif.Reentrant.C24_sequential`
* C25: `Verif.preflush_all_run`
* C26: `Verif.Actor.C26_bounds_partial`, `Verif.Actor.C26_defaults`, `Verif.Actor.C26_step`, `Verif.Actor.C26_eight`, `Verif.Actor.C26_backoff`, `Verif.Actor.C26_reversed_violated`, `Verif.Actor.C26_exact`, `Verif.Actor.C26_reversed_exact`
* C27: `Verif.Actor.C27_violated`, `Verif.Actor.C27_start_partial`, `Verif.Actor.C27_exact`
* C28: `Verif.Actor.C28_stop_partial`, `Verif.Actor.C28_two_users_violated`, `Verif.Actor.C28_users_partial`
* C29: `Verif.Actor.C29_survives_partial`, `Verif.Actor.C29_violated`, `Verif.Actor.C29_exact`
* C32: `Verif.Lvl.C32_order_partial`, `Verif.Lvl.C32_consistent_partial`, `Verif.Lvl.C32_exact`
* C33: `Verif.Lvl.C33_get_level`, `Verif.Lvl.C33_last_wins`, `Verif.Lvl.C33_builtins`
* C34: `Verif.Lvl.C34_next`, `Verif.Lvl.C34_prev`, `Verif.Lvl.C34_monotone`, `Verif.Lvl.C34_monotone_delta`
* C35: `Verif.Sens.C35_threshold_partial`, `Verif.Sens.C35_monotone`, `Verif.Sens.C35_exact`
* C36: `Verif.Sens.C36_emitted`
* C38: `Verif.Py.C38_absent`
* C39: `Verif.Json.C39_read_back_partial`, `Verif.Json.C39_injective_partial`, `Verif.Json.C39_printable`, `Verif.Json.C39_entry_partial`, `Verif.Json.C39_exact`
* C40: `Verif.Msg.C40_plain_partial`, `Verif.Msg.C40_after_read_partial`, `Verif.Msg.C40_violated`, `Verif.Msg.C40_exact`
* C43: `Verif.Emit.C43_violated`, `Verif.Emit.C43_needed`, `Verif.Emit.C43_exact`, `Verif.Emit.C43_file_exact`
* C44: `Verif.Emit.C44_priority_partial`, `Verif.Emit.C44_violated`, `Verif.Emit.C44_exact`
* C45: `Verif.Mom.C45_moments`, `Verif.Mom.C45_variance`, `Verif.Mom.C45_kurtosis`, `Verif.Mom.C45_skewness`, `Verif.Mom.C45_skewness_zero`, `Verif.Mom.C45_std_dev`, `Verif.Mom.C45_order`
* C46: `Verif.Mom.C46_min_max`
* C47: `Verif.Accum.C47_one_partial`, `Verif.Accum.C47_increasing_partial`, `Verif.Accum.C47_violated`, `Verif.Accum.C47_step`, `Verif.Accum.C47_history_partial`, `Verif.Accum.C47_exact`
* C48: `Verif.Accum.C48_violated`, `Verif.Accum.C48_step`, `Verif.Accum.C48_history_partial`, `Verif.Accum.C48_decreasing_partial`, `Verif.Accum.C48_exact`
* C49: `Verif.Accum.C49_partition_partial`, `Verif.Accum.C49_counts_partial`, `Verif.Accum.C49_violated`, `Verif.Accum.C49_exact`, `Verif.Accum.C49_ranges`
* C50: `Verif.Quant.C50_quantile`, `Verif.Quant.C50_order`, `Verif.Quant.C50_monotone`, `Verif.Quant.C50_between_partial`, `Verif.Quant.C50_get_quantiles`, `Verif.Quant.C50_iqr_trimean`, `Verif.Quant.C50_violated`, `Verif.Quant.C50_between_stored`
* C51: `Verif.Quant.C51_violated`, `Verif.Quant.C51_exact`
* C52: `Verif.P2.C52_estimates`, `Verif.P2.C52_readable`
* C53: `Verif.P2.C53_estimates_partial`, `Verif.P2.C53_count_min_max_partial`, `Verif.P2.C53_collecting_partial`, `Verif.P2.C53_violated`
* C54: `Verif.P2.C54_result`, `Verif.P2.C54_accepts`, `Verif.P2.C54_idempotent`
* C55: `Verif.Ewma.C55_conservation`, `Verif.Ewma.C55_windows`, `Verif.Ewma.C55_range`, `Verif.Ewma.C55_converges`, `Verif.Ewma.C55_stable_partial`, `Verif.Ewma.C55_reads_partial`, `Verif.Ewma.C55_violated_raises`, `Verif.Ewma.C55_violated_stable`, `Verif.Ewma.C55_make`, `Verif.Ewma.C55_range_made`, `Verif.Ewma.C55_reads_exact`, `Verif.Ewma.C55_stable_exact`, `Verif.Ewma.C55_formula`, `Verif.Ewma.C55_defined`
* C56: `Verif.Sinks.C56_window_partial`, `Verif.Sinks.C56_nonneg_partial`, `Verif.Sinks.C56_violated_end`, `Verif.Sinks.C56_violated_negative`, `Verif.Sinks.C56_violated_raises`, `Verif.Sinks.C56_violated_zero`, `Verif.Sinks.C56_exact`
* C57: `Verif.Sinks.C57_cells_partial`, `Verif.Sinks.C57_violated_names`, `Verif.Sinks.C57_violated_all`, `Verif.Sinks.C57_rows`
* C58: `Verif.Sinks.C58_total_partial`, `Verif.Sinks.C58_counts`, `Verif.Sinks.C58_violated_missing`, `Verif.Sinks.C58_violated_names`, `Verif.Sinks.C58_rows`, `Verif.Sinks.C58_bounds`
* C59: `Verif.Sinks.C59_routing`, `Verif.Sinks.C59_no_raise`, `Verif.Sinks.C59_reservoir`
* C60: `Verif.Sinks.C60_aggregates_partial`, `Verif.Sinks.C60_aggregates_exact`
* C61: `Verif.wrapped_same_result`, `Verif.wrapped_pure`, `Verif.wrapped_one_begin_one_end`, `Verif.wrapped_own_data`, `Verif.wrapped_calls_distinct`
* C62: `Verif.Wrapping.unwrap_undoes_wrap_partial`, `Verif.Wrapping.unwrap_restores_reads_partial`, `Verif.Wrapping.wrap_all_complete_partial`, `Verif.Wrapping.C62_complete_partial`, `Verif.Wrapping.C62_deep_partial`
* C63: `Verif.concurrent_blocks_partial`, `Verif.concurrent_last_exit_partial`
* C64: `Verif.comment_publishes_one`, `Verif.comment_delivered`, `Verif.comment_never_ends`, `Verif.C64_parented`
* C65: `Verif.warnings_recorded`
* C66: `Verif.bad_notes_partial`, `Verif.exception_recorded_partial`, `Verif.Actor.C29_violated`
* C67: `Verif.Tmpl.C67_exact`, `Verif.Tmpl.C67_made`, `Verif.Grammar.C67_grammar`
* C68: `Verif.Msg.C68_no_raise_partial`, `Verif.Msg.C68_violated`, `Verif.Msg.C68_raises`, `Verif.Grammar.C68_grammar_partial`
* C69: `Verif.Msg.C69_escape_partial`, `Verif.Msg.C69_violated`, `Verif.Msg.C69_iff`
* C70: `Verif.Msg.C70_default_partial`, `Verif.Msg.C70_violated`
* C71: `Verif.Sinks.C71_grand_total`, `Verif.Sinks.C71_cells_partial`, `Verif.Sinks.C71_lifetime`, `Verif.Sinks.C71_violated_names`, `Verif.Sinks.C71_rows`
* C72: `Verif.Sinks.C72_counts`, `Verif.Sinks.C72_frequent`
* C73: `Verif.Quant.C73_cover`, `Verif.Quant.C73_counts`, `Verif.Quant.C73_exact`, `Verif.Quant.C73_bounds`
* C74: `Verif.Quant.C74_values_partial`, `Verif.Quant.C74_violated`, `Verif.Quant.C74_exact`
* C75: `Verif.Fields.C75_available`, `Verif.Fields.C75_values`
* C76: `Verif.Fields.C76_lasting_partial`, `Verif.Fields.C76_depth_partial`, `Verif.Fields.C76_violated`, `Verif.Fields.C76_changing`
* C77: `Verif.Fields.C77_warn_char_violated`, `Verif.Fields.C77_raw_violated`, `Verif.Fields.C77_raw_partial`, `Verif.Fields.C77_identity`, `Verif.Fields.C77_begin`, `Verif.Fields.C77_end`, `Verif.Fields.C77_end_published`, `Verif.Fields.C77_unfinished`, `Verif.Fields.C77_exception`, `Verif.Fields.C77_status_char`, `Verif.Fields.C77_status_char_other`, `Verif.Fields.C77_depth`, `Verif.Fields.C77_data`
* C81: `Verif.C81_created`, `Verif.C81_reraise`
* C82: `Verif.C82_sound`
* C83: `Verif.C83_exception`, `Verif.C83_exit`
* C84: `Verif.Exit.C84_handlers_run`, `Verif.Exit.C84_flushed`, `Verif.Exit.C84_handler_installed`, `Verif.Exit.C84_disposition`, `Verif.Exit.C84_delivered`
* C85: `Verif.Exit.C85_violated`, `Verif.Exit.C85_exact`
* C86: `Verif.Tmpl.C86_message`, `Verif.Tmpl.C86_reads`, `Verif.Tmpl.C86_extra`
* C87: `Verif.Tmpl.C87_violated`, `Verif.Grammar.C87_grammar`
* C88: `Verif.Tmpl.C88_clean_partial`, `Verif.Tmpl.C88_printable_partial`, `Verif.Tmpl.C88_quoted`, `Verif.Tmpl.C88_violated`
* C89: `Verif.Tmpl.C89_entry`, `Verif.Tmpl.C89_read_back`
* C91: `Verif.Utf8.C91_ascii`, `Verif.Utf8.C91_valid`, `Verif.Utf8.C91_exact`
* C92: `Verif.LogFile.C92_read_log`
* C94: `Verif.Frames.C94_exact`
* C95: `Verif.Iso.C95_calendar`, `Verif.Iso.C95_order`, `Verif.Iso.C95_rounded`, `Verif.Iso.C95_shape`, `Verif.Iso.C95_text`
* C96: `Verif.Iso.C96_noms`, `Verif.Iso.C96_local_partial`, `Verif.Iso.C96_notz_violated`, `Verif.Iso.C96_noms_text`, `Verif.Iso.C96_text_partial`, `Verif.Iso.C96_exact`
* C97: `Verif.Dec.C97_fixed`, `Verif.Dec.C97_fields`, `Verif.Dec.C97_auto`, `Verif.Dec.C97_mono`, `Verif.Dec.C97_width_partial`, `Verif.Dec.C97_width_violated`, `Verif.Dec.C97_tie`, `Verif.Dec.C97_width_exact`
* C98: `Verif.C98_exception`, `Verif.C98_off_partial`, `Verif.C98_exact`, `Verif.C98_reraise_true`
