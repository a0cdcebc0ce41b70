# Axioms of the theorems listed in MANIFEST.json

Output of `#print axioms` (Lean 4.33.0).

| theorem | axioms |
|---|---|
| `Verif.Sched.C01_due_time_partial` | propext, Classical.choice, Quot.sound |
| `Verif.Sched.C01_fails` | propext, Quot.sound |
| `Verif.Sched.C02_fires_partial` | propext, Classical.choice, Quot.sound |
| `Verif.Sched.C09_moved_partial` | propext, Classical.choice, Quot.sound |
| `Verif.Sched.C02_skipped_partial` | propext, Classical.choice, Quot.sound |
| `Verif.Sched.C02_called_partial` | propext, Classical.choice, Quot.sound |
| `Verif.Sched.C02_fails` | propext |
| `Verif.Sched.C03_time_monotone` | propext, Quot.sound |
| `Verif.Sched.C03_no_skip_partial` | propext, Classical.choice, Quot.sound |
| `Verif.Sched.C03_no_skip_fails` | propext, Quot.sound |
| `Verif.Sched.C04_order_partial` | propext, Classical.choice, Quot.sound |
| `Verif.Sched.C04_immediate_first` | propext, Classical.choice, Quot.sound |
| `Verif.Sched.C04_order_fails` | propext |
| `Verif.Sched.C05_ids_increase` | propext, Quot.sound |
| `Verif.Sched.C06_one_place_partial` | propext, Classical.choice, Quot.sound |
| `Verif.Sched.C06_held_partial` | propext, Classical.choice, Quot.sound |
| `Verif.Sched.C06_fails` | propext, Quot.sound |
| `Verif.Sched.C07_rejected_no_effect` | propext, Quot.sound |
| `Verif.Sched.C08_never_again_partial` | propext, Classical.choice, Quot.sound |
| `Verif.Sched.C08_others_partial` | propext, Classical.choice, Quot.sound |
| `Verif.Sched.C08_fails` | propext, Quot.sound |
| `Verif.Sched.C08_batch_fails` | propext, Quot.sound |
| `Verif.Sched.C09_past_removes_partial` | propext, Classical.choice, Quot.sound |
| `Verif.Sched.C09_others` | propext, Classical.choice, Quot.sound |
| `Verif.Sched.C09_fails` | propext, Quot.sound |
| `Verif.Sched.C10_cycle_pos_partial` | propext, Classical.choice, Quot.sound |
| `Verif.Sched.C10_fails` | propext |
| `Verif.Sched.C10_livelock_fails` | propext, Classical.choice, Quot.sound |
| `Verif.Pub.C100_same` | propext, Quot.sound |
| `Verif.Pub.C100_request_partial` | propext, Classical.choice, Quot.sound |
| `Verif.Pub.C100_property_partial` | propext, Classical.choice, Quot.sound |
| `Verif.Pub.C100_invoke` | propext, Classical.choice, Quot.sound |
| `Verif.Pub.C100_request_fails` | propext, Classical.choice, Quot.sound |
| `Verif.Pub.C100_property_fails` | propext, Classical.choice, Quot.sound |
| `Verif.Pub.C100_missing_fails` | propext, Classical.choice, Quot.sound |
| `Verif.Log.C101_lines` | propext, Quot.sound |
| `Verif.Log.C101_properties` | propext, Classical.choice, Quot.sound |
| `Verif.Log.C101_appenders` | propext, Classical.choice, Quot.sound |
| `Verif.Log.C101_output_partial` | propext, Classical.choice, Quot.sound |
| `Verif.Log.C101_layout_fails` | propext, Classical.choice, Quot.sound |
| `Verif.Log.C101_layout_example` | propext, Classical.choice, Quot.sound |
| `Verif.Log.C101_sameFile_fails` | propext, Classical.choice, Quot.sound |
| `Verif.Log.C101_text` | propext, Classical.choice, Quot.sound |
| `Verif.Example.C102_count` | propext, Classical.choice, Quot.sound |
| `Verif.Example.C102_overflow` | propext, Classical.choice, Quot.sound |
| `Verif.Example.C102_sum_partial` | propext, Classical.choice, Quot.sound |
| `Verif.Example.C102_average_partial` | propext, Classical.choice, Quot.sound |
| `Verif.Example.C102_access` | propext, Classical.choice, Quot.sound |
| `Verif.Example.C102_sum_fails` | propext, Classical.choice, Quot.sound |
| `Verif.Example.C102_scheduled_partial` | propext, Classical.choice, Quot.sound |
| `Verif.Text.C103_strings` | propext, Classical.choice, Quot.sound |
| `Verif.Text.C103_views` | propext, Classical.choice, Quot.sound |
| `Verif.Text.C103_chars` | propext, Classical.choice, Quot.sound |
| `Verif.Text.C103_order` | propext |
| `Verif.Text.C103_hash` | propext, Classical.choice, Quot.sound |
| `Verif.Text.C103_plus` | propext, Quot.sound |
| `Verif.Text.C103_at` | propext, Quot.sound |
| `Verif.Text.C103_arrays_partial` | propext, Classical.choice, Quot.sound |
| `Verif.Text.C103_nested_partial` | propext, Classical.choice, Quot.sound |
| `Verif.Text.C103_arrayAt` | propext, Quot.sound |
| `Verif.Text.C103_fillSwap` | propext, Classical.choice, Quot.sound |
| `Verif.Text.C103_nan_fails` | propext, Quot.sound |
| `Verif.Sim.Dyn.C104_safe_partial` | propext, Classical.choice, Quot.sound |
| `Verif.Sim.Dyn.C104_visited_partial` | propext, Classical.choice, Quot.sound |
| `Verif.Sim.Dyn.C104_calls_partial` | propext, Classical.choice, Quot.sound |
| `Verif.Sim.Dyn.C104_order_partial` | propext, Classical.choice, Quot.sound |
| `Verif.Sim.Dyn.C104_connected_partial` | propext, Classical.choice, Quot.sound |
| `Verif.Sim.Dyn.C104_added_fails` | propext, Classical.choice, Quot.sound |
| `Verif.Sim.Dyn.C104_removed_fails` | propext |
| `Verif.Tree.Hooks.C105_linear` | propext, Classical.choice, Quot.sound |
| `Verif.Tree.Hooks.C105_count_partial` | propext, Classical.choice, Quot.sound |
| `Verif.Tree.Hooks.C105_after` | propext, Classical.choice, Quot.sound |
| `Verif.Tree.Hooks.C105_wrong` | propext |
| `Verif.Tree.Hooks.C105_quiet` | propext, Quot.sound |
| `Verif.Tree.Hooks.C105_once_partial` | propext, Quot.sound |
| `Verif.Tree.Hooks.C105_configure_fails` | propext |
| `Verif.Tree.Hooks.C105_inherited_fails` | propext |
| `Verif.Tree.Hooks.C105_disconnect_fails` | propext |
| `Verif.Tree.Hooks.C105_raise_fails` | propext, Classical.choice, Quot.sound |
| `Verif.Field.Annot.C106_compiles` | propext, Classical.choice, Quot.sound |
| `Verif.Field.Annot.C106_forcible` | propext, Classical.choice, Quot.sound |
| `Verif.Field.Annot.C106_flags_partial` | propext, Classical.choice, Quot.sound |
| `Verif.Field.Annot.C106_connect_partial` | propext, Classical.choice, Quot.sound |
| `Verif.Field.Annot.C106_nested_fails` | propext, Classical.choice, Quot.sound |
| `Verif.Field.Annot.C106_input_fails` | propext |
| `Verif.Field.Ops.C107_exact` | propext, Classical.choice, Quot.sound |
| `Verif.Field.Ops.C107_modular` | propext, Classical.choice, Quot.sound |
| `Verif.Field.Ops.C107_undefined` | propext, Classical.choice, Quot.sound |
| `Verif.Field.Ops.C107_div_partial` | propext, Classical.choice, Quot.sound |
| `Verif.Field.Ops.C107_mod_partial` | propext, Classical.choice, Quot.sound |
| `Verif.Field.Ops.C107_zero` | propext, Classical.choice, Quot.sound |
| `Verif.Field.Ops.C107_shl` | propext, Classical.choice, Quot.sound |
| `Verif.Field.Ops.C107_shr` | propext, Classical.choice, Quot.sound |
| `Verif.Field.Ops.C107_bits` | propext, Classical.choice, Quot.sound |
| `Verif.Field.Ops.C107_forced` | propext, Classical.choice, Quot.sound |
| `Verif.Field.Ops.C107_assign` | propext, Classical.choice, Quot.sound |
| `Verif.Field.Ops.C107_iterator` | propext, Quot.sound |
| `Verif.Field.Ops.C107_write` | propext, Classical.choice, Quot.sound |
| `Verif.Field.Ops.C107_writeAt` | propext, Classical.choice, Quot.sound |
| `Verif.Field.Ops.C107_writeRev` | propext, Classical.choice, Quot.sound |
| `Verif.Field.Ops.C107_copy_partial` | propext, Classical.choice, Quot.sound |
| `Verif.Field.Ops.C107_copyRev_partial` | propext, Classical.choice, Quot.sound |
| `Verif.Field.Ops.C107_mul_fails` | propext, Quot.sound |
| `Verif.Field.Ops.C107_sign_fails` | propext, Quot.sound |
| `Verif.Field.Ops.C107_fill_fails` | propext, Classical.choice, Quot.sound |
| `Verif.Tree.Gone.C108_safe_partial` | propext, Classical.choice, Quot.sound |
| `Verif.Tree.Gone.C108_dangling_partial` | propext, Classical.choice, Quot.sound |
| `Verif.Tree.Gone.C108_removed_partial` | propext, Classical.choice, Quot.sound |
| `Verif.Tree.Gone.C108_nested_fails` | propext, Quot.sound |
| `Verif.Tree.Gone.C108_fields_fails` | propext, Quot.sound |
| `Verif.Tree.Gone.C108_source_fails` | propext |
| `Verif.Tree.Gone.C108_stale_fails` | propext |
| `Verif.Chrono.Compare.C109_consistent` | propext, Classical.choice, Quot.sound |
| `Verif.Chrono.Compare.C109_durations` | propext, Classical.choice, Quot.sound |
| `Verif.Chrono.Compare.C109_integers_partial` | propext, Classical.choice, Quot.sound |
| `Verif.Chrono.Compare.C109_chrono` | propext, Classical.choice, Quot.sound |
| `Verif.Chrono.Compare.C109_chrono_partial` | propext, Classical.choice, Quot.sound |
| `Verif.Chrono.Compare.C109_literals` | propext, Classical.choice, Quot.sound |
| `Verif.Chrono.Compare.C109_unsigned_fails` | propext |
| `Verif.Chrono.Compare.C109_picoseconds_fails` | propext |
| `Verif.Chrono.Compare.C109_hours_fails` | propext, Classical.choice, Quot.sound |
| `Verif.Chrono.Compare.C109_nan_fails` | propext |
| `Verif.Chrono.Compare.C109_literal_fails` | none |
| `Verif.Sched.C11_next_le_partial` | propext, Classical.choice, Quot.sound |
| `Verif.Sched.C11_next_min_partial` | propext, Classical.choice, Quot.sound |
| `Verif.Sched.C11_fails` | propext |
| `Verif.Log.Threads.C110_order_partial` | propext, Classical.choice, Quot.sound |
| `Verif.Log.Threads.C110_named` | propext, Classical.choice, Quot.sound |
| `Verif.Log.Threads.C110_entries` | propext, Classical.choice, Quot.sound |
| `Verif.Log.Threads.C110_times` | propext, Classical.choice, Quot.sound |
| `Verif.Log.Threads.C110_moment_partial` | propext, Quot.sound |
| `Verif.Log.Threads.C110_live` | propext, Classical.choice, Quot.sound |
| `Verif.Log.Threads.C110_restore_fails` | propext |
| `Verif.Log.Threads.C110_moment_fails` | propext, Quot.sound |
| `Verif.Raise.C111_add` | propext, Classical.choice, Quot.sound |
| `Verif.Raise.C111_delete` | propext, Quot.sound |
| `Verif.Raise.C111_reference` | propext, Classical.choice, Quot.sound |
| `Verif.Raise.C111_null` | propext |
| `Verif.Raise.C111_collection` | propext, Quot.sound |
| `Verif.Raise.C111_source` | propext, Quot.sound |
| `Verif.Raise.C111_factory` | propext, Quot.sound |
| `Verif.Raise.C111_life` | propext, Quot.sound |
| `Verif.Raise.C111_events` | propext, Quot.sound |
| `Verif.Raise.C111_times` | propext, Quot.sound |
| `Verif.Raise.C111_types` | propext, Classical.choice, Quot.sound |
| `Verif.Raise.C111_null_fails` | propext, Quot.sound |
| `Verif.Raise.C111_event_time_fails` | propext |
| `Verif.Raise.C111_enumeration_fails` | propext, Classical.choice, Quot.sound |
| `Verif.Raise.C112_same` | propext, Classical.choice, Quot.sound |
| `Verif.Raise.C112_item_partial` | propext, Classical.choice, Quot.sound |
| `Verif.Raise.C112_all_partial` | propext, Classical.choice, Quot.sound |
| `Verif.Raise.C112_field_partial` | propext, Classical.choice, Quot.sound |
| `Verif.Raise.C112_index_fails` | propext, Quot.sound |
| `Verif.Raise.C112_class_fails` | propext, Classical.choice, Quot.sound |
| `Verif.Raise.C112_null_fails` | propext, Classical.choice, Quot.sound |
| `Verif.Raise.C112_kinds_fails` | propext, Classical.choice, Quot.sound |
| `Verif.Sim.Packages.C113_load_partial` | propext, Classical.choice, Quot.sound |
| `Verif.Sim.Packages.C113_end_partial` | propext, Classical.choice, Quot.sound |
| `Verif.Sim.Packages.C113_once` | propext, Quot.sound |
| `Verif.Sim.Packages.C113_again` | propext, Quot.sound |
| `Verif.Sim.Packages.C113_result` | propext, Quot.sound |
| `Verif.Sim.Packages.C113_two_fails` | propext, Quot.sound |
| `Verif.Sim.Packages.C113_retry_fails` | propext, Quot.sound |
| `Verif.Sim.Packages.C113_state_fails` | propext, Quot.sound |
| `Verif.Sim.Packages.C113_address_fails` | propext, Quot.sound |
| `Verif.Sim.Ending.C114_destroy_partial` | propext, Classical.choice, Quot.sound |
| `Verif.Sim.Ending.C114_calm_partial` | propext, Classical.choice, Quot.sound |
| `Verif.Sim.Ending.C114_wait` | propext, Quot.sound |
| `Verif.Sim.Ending.C114_exit_fails` | propext, Quot.sound |
| `Verif.Sim.Ending.C114_abort_fails` | propext, Quot.sound |
| `Verif.Sim.Ending.C114_order_fails` | propext, Quot.sound |
| `Verif.Sim.Ending.C114_end_partial` | propext, Classical.choice, Quot.sound |
| `Verif.Sim.Ending.C114_works` | propext, Quot.sound |
| `Verif.Chrono.Text.C115_dateTime_partial` | propext, Classical.choice, Quot.sound |
| `Verif.Chrono.Text.C115_duration` | propext |
| `Verif.Chrono.Text.C115_reads` | propext, Classical.choice, Quot.sound |
| `Verif.Chrono.Text.C115_stream` | propext |
| `Verif.Chrono.Text.C115_output_partial` | propext, Classical.choice, Quot.sound |
| `Verif.Chrono.Text.C115_notADate_fails` | propext |
| `Verif.Chrono.Text.C115_notADuration_fails` | propext |
| `Verif.Chrono.Text.C115_late_fails` | propext, Classical.choice, Quot.sound |
| `Verif.Sim.Writer.C116_complete_partial` | propext, Quot.sound |
| `Verif.Sim.Writer.C116_prefix` | propext, Quot.sound |
| `Verif.Sim.Writer.C116_told_partial` | propext, Quot.sound |
| `Verif.Sim.Writer.C116_restore_partial` | propext, Classical.choice, Quot.sound |
| `Verif.Sim.Writer.C116_cut` | propext, Classical.choice, Quot.sound |
| `Verif.Sim.Writer.C116_full_fails` | none |
| `Verif.Sim.Writer.C116_lost_fails` | propext, Quot.sound |
| `Verif.Sim.Writer.C116_standby_fails` | none |
| `Verif.Python.Index.C117_getitem_partial` | propext, Quot.sound |
| `Verif.Python.Index.C117_negative_fails` | propext, Quot.sound |
| `Verif.Python.Index.C117_safe` | propext, Quot.sound |
| `Verif.Python.Index.C117_for` | propext, Quot.sound |
| `Verif.Python.Index.C117_name` | propext, Quot.sound |
| `Verif.Python.Index.C117_delete_container_partial` | propext, Quot.sound |
| `Verif.Python.Index.C117_delete_reference_partial` | propext, Quot.sound |
| `Verif.Python.Index.C117_delete_reference_fails` | propext |
| `Verif.Python.Index.C117_delete_name` | propext, Quot.sound |
| `Verif.Python.Index.C117_set_get` | propext, Quot.sound |
| `Verif.Python.Index.C117_set` | propext, Classical.choice, Quot.sound |
| `Verif.Python.Index.C117_value_partial` | propext, Quot.sound |
| `Verif.Python.Index.C117_delete_outside` | propext, Quot.sound |
| `Verif.Python.Value.C118_int` | propext, Classical.choice, Quot.sound |
| `Verif.Python.Value.C118_bool` | propext, Classical.choice, Quot.sound |
| `Verif.Python.Value.C118_char` | propext, Classical.choice, Quot.sound |
| `Verif.Python.Value.C118_string_partial` | propext, Classical.choice, Quot.sound |
| `Verif.Python.Value.C118_nul_fails` | propext, Classical.choice, Quot.sound |
| `Verif.Python.Value.C118_float64` | propext, Classical.choice, Quot.sound |
| `Verif.Python.Value.C118_float32_partial` | propext, Classical.choice, Quot.sound |
| `Verif.Python.Value.C118_float32_fails` | propext, Classical.choice, Quot.sound |
| `Verif.Python.Value.C118_read` | propext, Classical.choice, Quot.sound |
| `Verif.Python.Value.C118_notUtf8_fails` | propext, Classical.choice, Quot.sound |
| `Verif.Python.Value.C118_field` | propext, Classical.choice, Quot.sound |
| `Verif.Python.Value.C118_kind` | propext, Classical.choice, Quot.sound |
| `Verif.Python.Value.C118_increment` | propext, Classical.choice, Quot.sound |
| `Verif.Python.Value.C118_other` | propext, Classical.choice, Quot.sound |
| `Verif.Python.Value.C118_truth_partial` | propext, Classical.choice, Quot.sound |
| `Verif.Python.Value.C118_truth_fails` | propext, Classical.choice, Quot.sound |
| `Verif.Python.Value.C118_refused` | propext, Classical.choice, Quot.sound |
| `Verif.Python.Call.C119_bound` | propext, Classical.choice, Quot.sound |
| `Verif.Python.Call.C119_called` | propext, Classical.choice, Quot.sound |
| `Verif.Python.Call.C119_errors` | propext, Classical.choice, Quot.sound |
| `Verif.Python.Call.C119_result` | propext, Classical.choice, Quot.sound |
| `Verif.Python.Call.C119_names_partial` | propext, Classical.choice, Quot.sound |
| `Verif.Python.Call.C119_names_fails` | propext, Classical.choice, Quot.sound |
| `Verif.Python.Call.C119_keyword_fails` | propext, Classical.choice, Quot.sound |
| `Verif.Python.Call.C119_unconverted` | propext, Classical.choice, Quot.sound |
| `Verif.Sched.C12_no_ub_partial` | propext, Classical.choice, Quot.sound |
| `Verif.Sched.C12_iterator_fails` | propext |
| `Verif.Sched.C12_event_fails` | propext |
| `Verif.Sched.C12_lookup_fails` | propext |
| `Verif.Sched.C12_announce_fails` | propext |
| `Verif.Sched.C12_overflow_fails` | propext |
| `Verif.Sched.C12_add_overflow_fails` | propext |
| `Verif.Python.Run.C120_exact_partial` | propext, Classical.choice, Quot.sound |
| `Verif.Python.Run.C120_near` | propext, Classical.choice, Quot.sound |
| `Verif.Python.Run.C120_nearest_fails` | propext, Classical.choice, Quot.sound |
| `Verif.Python.Run.C120_range_fails` | propext, Classical.choice, Quot.sound |
| `Verif.Python.Run.C120_negative` | propext, Classical.choice, Quot.sound |
| `Verif.Python.Run.C120_run_partial` | propext, Classical.choice, Quot.sound |
| `Verif.Python.Run.C120_dangling_fails` | propext, Classical.choice, Quot.sound |
| `Verif.Python.Class.C121_isinstance_partial` | propext, Classical.choice, Quot.sound |
| `Verif.Python.Class.C121_order` | propext, Classical.choice, Quot.sound |
| `Verif.Python.Class.C121_direct` | propext, Classical.choice, Quot.sound |
| `Verif.Python.Class.C121_unlisted_fails` | propext, Classical.choice, Quot.sound |
| `Verif.Python.Class.C121_factory_fails` | propext |
| `Verif.Python.Class.C121_collection_fails` | propext, Classical.choice, Quot.sound |
| `Verif.Python.Attr.C122_get_partial` | propext, Classical.choice, Quot.sound |
| `Verif.Python.Attr.C122_child` | propext, Classical.choice, Quot.sound |
| `Verif.Python.Attr.C122_item` | propext, Classical.choice, Quot.sound |
| `Verif.Python.Attr.C122_set` | propext, Classical.choice, Quot.sound |
| `Verif.Python.Attr.C122_set_int` | propext, Classical.choice, Quot.sound |
| `Verif.Python.Attr.C122_typo` | propext, Classical.choice, Quot.sound |
| `Verif.Python.Attr.C122_add` | propext, Classical.choice, Quot.sound |
| `Verif.Python.Attr.C122_iadd` | propext, Classical.choice, Quot.sound |
| `Verif.Python.Attr.C122_member_fails` | propext, Classical.choice, Quot.sound |
| `Verif.Python.Attr.C122_hidden_fails` | propext, Classical.choice, Quot.sound |
| `Verif.Python.Attr.C122_none_fails` | propext, Classical.choice, Quot.sound |
| `Verif.Python.Attr.C122_assign_fails` | propext, Classical.choice, Quot.sound |
| `Verif.Tree.Reent.C123_safe_partial` | propext, Classical.choice, Quot.sound |
| `Verif.Tree.Reent.C123_deleted_partial` | propext, Classical.choice, Quot.sound |
| `Verif.Tree.Reent.C123_refused_partial` | propext, Classical.choice, Quot.sound |
| `Verif.Tree.Reent.C123_alone` | propext, Classical.choice, Quot.sound |
| `Verif.Tree.Reent.C123_lower_partial` | propext, Classical.choice, Quot.sound |
| `Verif.Tree.Reent.C123_clear_partial` | propext, Quot.sound |
| `Verif.Tree.Reent.C123_earlier_fails` | propext, Quot.sound |
| `Verif.Tree.Reent.C123_grow_fails` | propext, Quot.sound |
| `Verif.Tree.Reent.C123_self_fails` | propext, Quot.sound |
| `Verif.Tree.Reent.C123_endless_fails` | propext, Quot.sound |
| `Verif.Tree.Reent.C123_lower_fails` | propext, Quot.sound |
| `Verif.Tree.Reent.C123_clear_fails` | propext, Quot.sound |
| `Verif.Tree.Reent.C123_terminate_fails` | propext, Quot.sound |
| `Verif.Python.Hints.C124_read_partial` | propext, Classical.choice, Quot.sound |
| `Verif.Python.Hints.C124_defined` | propext, Classical.choice, Quot.sound |
| `Verif.Python.Hints.C124_classes` | propext, Classical.choice, Quot.sound |
| `Verif.Python.Hints.C124_attributes_partial` | propext, Classical.choice, Quot.sound |
| `Verif.Python.Hints.C124_unpublished_fails` | propext, Classical.choice, Quot.sound |
| `Verif.Python.Hints.C124_member_fails` | propext, Classical.choice, Quot.sound |
| `Verif.Python.Hints.C124_keyword_fails` | propext, Classical.choice, Quot.sound |
| `Verif.Python.Hints.C124_quote_fails` | propext, Classical.choice, Quot.sound |
| `Verif.Python.Hints.C124_fallible_fails` | propext, Classical.choice, Quot.sound |
| `Verif.Pub.C125_construct` | propext, Classical.choice, Quot.sound |
| `Verif.Pub.C125_kind` | propext, Classical.choice, Quot.sound |
| `Verif.Pub.C125_registered` | propext, Classical.choice, Quot.sound |
| `Verif.Pub.C125_valid` | propext, Classical.choice, Quot.sound |
| `Verif.Pub.C125_texts` | propext, Classical.choice, Quot.sound |
| `Verif.Pub.C125_extended` | propext, Classical.choice, Quot.sound |
| `Verif.Pub.C125_each` | propext, Classical.choice, Quot.sound |
| `Verif.Tree.Make.C126_memory_partial` | propext, Quot.sound |
| `Verif.Tree.Make.C126_create_partial` | propext, Quot.sound |
| `Verif.Tree.Make.C126_register_partial` | propext, Quot.sound |
| `Verif.Tree.Make.C126_typed` | propext |
| `Verif.Tree.Make.C126_fails` | propext, Classical.choice, Quot.sound |
| `Verif.Tree.Make.C126_make_partial` | propext, Quot.sound |
| `Verif.Tree.Make.C126_delete` | propext, Quot.sound |
| `Verif.Tree.Make.C126_null_fails` | propext |
| `Verif.Raise.Flow.C127_connect_partial` | propext, Classical.choice, Quot.sound |
| `Verif.Raise.Flow.C127_connect_fails` | propext, Classical.choice, Quot.sound |
| `Verif.Raise.Flow.C127_published` | propext, Classical.choice, Quot.sound |
| `Verif.Raise.Flow.C127_null` | propext |
| `Verif.Raise.Flow.C127_state` | propext, Quot.sound |
| `Verif.Raise.Flow.C127_library` | propext |
| `Verif.Raise.Flow.C127_cause` | propext, Classical.choice, Quot.sound |
| `Verif.Raise.Flow.C127_load` | propext |
| `Verif.Raise.Flow.C127_null_library` | propext |
| `Verif.Raise.Flow.C127_read` | propext, Classical.choice, Quot.sound |
| `Verif.Raise.Flow.C127_end_fails` | propext, Classical.choice, Quot.sound |
| `Verif.Raise.Flow.C127_open_fails` | propext |
| `Verif.Raise.Flow.C127_restore` | propext, Quot.sound |
| `Verif.Raise.Flow.C127_truncated` | propext, Classical.choice, Quot.sound |
| `Verif.Raise.Life.C128_field_partial` | propext, Classical.choice, Quot.sound |
| `Verif.Raise.Life.C128_field_fails` | propext, Classical.choice, Quot.sound |
| `Verif.Raise.Life.C128_made` | propext, Classical.choice, Quot.sound |
| `Verif.Raise.Life.C128_same` | propext, Quot.sound |
| `Verif.Raise.Life.C128_type_partial` | propext, Classical.choice, Quot.sound |
| `Verif.Raise.Life.C128_type_fails` | propext, Classical.choice, Quot.sound |
| `Verif.Raise.Life.C128_type_made` | propext, Classical.choice, Quot.sound |
| `Verif.Raise.Life.C128_component_partial` | propext, Classical.choice, Quot.sound |
| `Verif.Raise.Life.C128_component_fails` | propext, Classical.choice, Quot.sound |
| `Verif.Sched.Pacing.C129_not_ahead` | propext, Classical.choice, Quot.sound |
| `Verif.Sched.Pacing.C129_real_time` | propext, Classical.choice, Quot.sound |
| `Verif.Sched.Pacing.C129_catches_up` | propext, Classical.choice, Quot.sound |
| `Verif.Sched.Pacing.C129_speed_partial` | propext, Classical.choice, Quot.sound |
| `Verif.Sched.Pacing.C129_nan_fails` | propext, Classical.choice, Quot.sound |
| `Verif.Sched.Pacing.C129_defined_partial` | propext, Classical.choice, Quot.sound |
| `Verif.Sched.Pacing.C129_end_fails` | propext, Classical.choice, Quot.sound |
| `Verif.Sched.Pacing.C129_end_default` | propext, Classical.choice, Quot.sound |
| `Verif.Sched.C13_zulu_independent_partial` | propext, Classical.choice, Quot.sound |
| `Verif.Sched.C13_fails` | propext, Quot.sound |
| `Verif.Python.Oper.C130_binary` | propext, Classical.choice, Quot.sound |
| `Verif.Python.Oper.C130_compare` | propext, Classical.choice, Quot.sound |
| `Verif.Python.Oper.C130_expr_partial` | propext, Classical.choice, Quot.sound |
| `Verif.Python.Oper.C130_missing_fails` | propext, Classical.choice, Quot.sound |
| `Verif.Python.Oper.C130_pos_fails` | propext, Classical.choice, Quot.sound |
| `Verif.Python.Oper.C130_text_fails` | propext, Classical.choice, Quot.sound |
| `Verif.Python.Oper.C130_augmented_partial` | propext, Classical.choice, Quot.sound |
| `Verif.Python.Oper.C130_augmented_done` | propext, Classical.choice, Quot.sound |
| `Verif.Python.Oper.C130_self` | propext, Classical.choice, Quot.sound |
| `Verif.Python.Oper.C130_frame` | propext, Classical.choice, Quot.sound |
| `Verif.Python.Oper.C130_live` | propext, Classical.choice, Quot.sound |
| `Verif.Python.Oper.C130_local_fails` | propext, Classical.choice, Quot.sound |
| `Verif.Python.Oper.C130_property_fails` | propext, Classical.choice, Quot.sound |
| `Verif.Event.Restoring.C131_quiet_partial` | propext, Classical.choice, Quot.sound |
| `Verif.Event.Restoring.C131_single` | propext, Classical.choice, Quot.sound |
| `Verif.Event.Restoring.C131_restored` | propext, Classical.choice, Quot.sound |
| `Verif.Event.Restoring.C131_repaired` | propext, Classical.choice, Quot.sound |
| `Verif.Event.Restoring.C131_truncated_fails` | propext, Quot.sound |
| `Verif.Event.Restoring.C131_standard_fails` | propext, Quot.sound |
| `Verif.Event.Restoring.C131_emit_fails` | propext, Quot.sound |
| `Verif.Event.Restoring.C131_query_fails` | propext, Quot.sound |
| `Verif.Event.Restoring.C131_loop_fails` | propext, Quot.sound |
| `Verif.Sim.C132_settled_partial` | propext, Classical.choice, Quot.sound |
| `Verif.Sim.C132_offers` | propext, Classical.choice, Quot.sound |
| `Verif.Sim.C132_building` | propext |
| `Verif.Sim.C132_stuck` | propext, Quot.sound |
| `Verif.Sim.C132_fails` | propext, Quot.sound |
| `Verif.Sched.C133_refused_partial` | propext, Classical.choice, Quot.sound |
| `Verif.Sched.C133_cut` | propext, Classical.choice, Quot.sound |
| `Verif.Sched.C133_run_fails` | propext, Quot.sound |
| `Verif.Sched.C133_id_fails` | propext, Quot.sound |
| `Verif.Chrono.Floating.C134_order` | propext, Classical.choice, Quot.sound |
| `Verif.Chrono.Floating.C134_exact_partial` | propext, Classical.choice, Quot.sound |
| `Verif.Chrono.Floating.C134_equal_fails` | propext, Classical.choice, Quot.sound |
| `Verif.Chrono.Floating.C134_assign` | propext, Classical.choice, Quot.sound |
| `Verif.Chrono.Floating.C134_compound_partial` | propext, Classical.choice, Quot.sound |
| `Verif.Chrono.Floating.C134_near` | propext, Classical.choice, Quot.sound |
| `Verif.Chrono.Floating.C134_identity_fails` | propext, Classical.choice, Quot.sound |
| `Verif.Chrono.Floating.C134_defined_fails` | propext, Classical.choice, Quot.sound |
| `Verif.Chrono.Floating.C134_infinite` | propext, Classical.choice, Quot.sound |
| `Verif.Chrono.Floating.C134_chrono_partial` | propext, Classical.choice, Quot.sound |
| `Verif.Chrono.Floating.C134_nearest_fails` | propext, Classical.choice, Quot.sound |
| `Verif.Field.Floating.C135_nearest` | propext, Classical.choice, Quot.sound |
| `Verif.Field.Floating.C135_integer_operand` | propext, Classical.choice, Quot.sound |
| `Verif.Field.Floating.C135_float_partial` | propext, Classical.choice, Quot.sound |
| `Verif.Field.Floating.C135_twice_fails` | propext, Classical.choice, Quot.sound |
| `Verif.Field.Floating.C135_increment_partial` | propext, Classical.choice, Quot.sound |
| `Verif.Field.Floating.C135_increment_fails` | propext, Classical.choice, Quot.sound |
| `Verif.Field.Floating.C135_integer_partial` | propext, Classical.choice, Quot.sound |
| `Verif.Field.Floating.C135_small` | propext, Quot.sound |
| `Verif.Field.Floating.C135_nan` | propext, Classical.choice, Quot.sound |
| `Verif.Field.Floating.C135_infinite` | propext, Classical.choice, Quot.sound |
| `Verif.Field.Floating.C135_integer_fails` | propext, Classical.choice, Quot.sound |
| `Verif.Field.Floating.C135_forced` | propext, Classical.choice, Quot.sound |
| `Verif.Field.Floating.C135_assign` | propext, Classical.choice, Quot.sound |
| `Verif.Field.Floating.C135_undefined` | propext, Classical.choice, Quot.sound |
| `Verif.Python.Own.C136_safe_partial` | propext, Classical.choice, Quot.sound |
| `Verif.Python.Own.C136_drop_partial` | propext, Classical.choice, Quot.sound |
| `Verif.Python.Own.C136_others` | propext, Quot.sound |
| `Verif.Python.Own.C136_end_partial` | propext, Classical.choice, Quot.sound |
| `Verif.Python.Own.C136_only_partial` | propext, Classical.choice, Quot.sound |
| `Verif.Python.Own.C136_live_partial` | propext, Classical.choice, Quot.sound |
| `Verif.Python.Own.C136_one_partial` | propext, Classical.choice, Quot.sound |
| `Verif.Python.Own.C136_again` | propext, Quot.sound |
| `Verif.Python.Own.C136_which` | propext |
| `Verif.Python.Own.C136_take_fails` | propext, Classical.choice, Quot.sound |
| `Verif.Python.Own.C136_member_fails` | propext, Classical.choice, Quot.sound |
| `Verif.Python.Own.C136_leak_fails` | propext, Classical.choice, Quot.sound |
| `Verif.Python.Own.C136_stale_fails` | propext, Classical.choice, Quot.sound |
| `Verif.Python.Own.C136_delete` | propext, Classical.choice, Quot.sound |
| `Verif.Python.Own.C136_made` | propext, Classical.choice, Quot.sound |
| `Verif.Python.Own.C136_balance` | propext, Quot.sound |
| `Verif.Sim.Holders.C137_safe_partial` | propext, Quot.sound |
| `Verif.Sim.Holders.C137_pointers_partial` | propext, Quot.sound |
| `Verif.Sim.Holders.C137_take_back` | propext, Quot.sound |
| `Verif.Sim.Holders.C137_late` | propext, Quot.sound |
| `Verif.Sim.Holders.C137_event_fails` | propext, Quot.sound |
| `Verif.Sim.Holders.C137_subscription_fails` | propext, Classical.choice, Quot.sound |
| `Verif.Sim.Holders.C137_init_fails` | propext, Quot.sound |
| `Verif.Sim.Holders.C137_emission_fails` | propext, Quot.sound |
| `Verif.Sim.Holders.C137_self_fails` | propext, Quot.sound |
| `Verif.Sim.Holders.C137_slot_fails` | propext, Quot.sound |
| `Verif.Sim.Holders.C137_immediate_fails` | propext, Quot.sound |
| `Verif.Sim.Holders.C137_unsubscribe_fails` | propext, Quot.sound |
| `Verif.Sim.Holders.C137_reuse_fails` | propext, Quot.sound |
| `Verif.Sim.Holders.C137_emission_partial` | propext, Quot.sound |
| `Verif.Sim.Holders.C137_initialise_partial` | propext, Quot.sound |
| `Verif.Sim.Holders.C137_current` | propext, Quot.sound |
| `Verif.Sim.Holders.C137_hold` | propext, Quot.sound |
| `Verif.Sim.Holders.C137_others` | propext, Classical.choice, Quot.sound |
| `Verif.Sim.Matched.C138_once` | propext, Quot.sound |
| `Verif.Sim.Matched.C138_state` | propext, Quot.sound |
| `Verif.Sim.Matched.C138_matched_partial` | propext, Classical.choice, Quot.sound |
| `Verif.Sim.Matched.C138_end_partial` | propext, Quot.sound |
| `Verif.Sim.Matched.C138_destroy_partial` | propext, Quot.sound |
| `Verif.Sim.Matched.C138_exit` | propext, Quot.sound |
| `Verif.Sim.Matched.C138_order` | propext, Quot.sound |
| `Verif.Sim.Matched.C138_abort_fails` | propext, Quot.sound |
| `Verif.Sim.Matched.C138_exception_fails` | propext, Quot.sound |
| `Verif.Sim.Matched.C138_connect_fails` | propext, Quot.sound |
| `Verif.Sim.Matched.C138_init_fails` | propext, Quot.sound |
| `Verif.Sim.Matched.C138_child_fails` | propext, Quot.sound |
| `Verif.Sim.Matched.C138_exit_fails` | propext, Quot.sound |
| `Verif.Sim.Matched.C138_terminate_fails` | propext, Quot.sound |
| `Verif.Sim.Matched.C139_off` | propext, Classical.choice, Quot.sound |
| `Verif.Sim.Matched.C139_delete_partial` | propext, Quot.sound |
| `Verif.Sim.Matched.C139_exit` | propext, Quot.sound |
| `Verif.Sim.Matched.C139_exit_fails` | propext, Quot.sound |
| `Verif.Sim.Matched.C139_exit_partial` | propext, Quot.sound |
| `Verif.Sched.RunFor.C14_bound_partial` | propext, Classical.choice, Quot.sound |
| `Verif.Sched.RunFor.C14_held_partial` | propext, Classical.choice, Quot.sound |
| `Verif.Sched.RunFor.C14_fails` | propext, Quot.sound |
| `Verif.Sched.RunFor.C14_jump_fails` | propext |
| `Verif.Python.Case.C140_alone_partial` | propext, Classical.choice, Quot.sound |
| `Verif.Python.Case.C140_destroyed_partial` | propext, Classical.choice, Quot.sound |
| `Verif.Python.Case.C140_matched_partial` | propext, Classical.choice, Quot.sound |
| `Verif.Python.Case.C140_passed` | propext, Classical.choice, Quot.sound |
| `Verif.Python.Case.C140_standby_partial` | propext, Classical.choice, Quot.sound |
| `Verif.Python.Case.C140_standby_fails` | propext, Quot.sound |
| `Verif.Python.Case.C140_exit_fails` | propext, Classical.choice, Quot.sound |
| `Verif.Python.Case.C140_base_fails` | propext, Classical.choice, Quot.sound |
| `Verif.Python.Case.C140_outlive` | propext, Quot.sound |
| `Verif.Sched.ZuluRestore.C141_safe_partial` | propext, Classical.choice, Quot.sound |
| `Verif.Sched.ZuluRestore.C141_same_partial` | propext, Classical.choice, Quot.sound |
| `Verif.Sched.ZuluRestore.C141_lost_fails` | propext, Classical.choice, Quot.sound |
| `Verif.Sched.ZuluRestore.C141_terminate_fails` | propext, Quot.sound |
| `Verif.Sched.ZuluRestore.C141_reuse_fails` | propext, Quot.sound |
| `Verif.Sched.ZuluRestore.C141_running_fails` | propext, Quot.sound |
| `Verif.Sched.HoldLater.C142_request` | propext |
| `Verif.Sched.HoldLater.C142_time_partial` | propext, Classical.choice, Quot.sound |
| `Verif.Sched.HoldLater.C142_held_partial` | propext, Classical.choice, Quot.sound |
| `Verif.Sched.HoldLater.C142_twice_fails` | propext |
| `Verif.Sched.HoldLater.C142_stale_fails` | propext, Classical.choice, Quot.sound |
| `Verif.Sched.HoldLater.C142_ended_fails` | propext |
| `Verif.Sched.HoldLater.C142_late_fails` | propext |
| `Verif.Sim.Threads.C143_legal_partial` | propext, Classical.choice, Quot.sound |
| `Verif.Sim.Threads.C143_one_partial` | propext, Classical.choice, Quot.sound |
| `Verif.Sim.Threads.C143_held_partial` | propext, Classical.choice, Quot.sound |
| `Verif.Sim.Threads.C143_together_fails` | propext, Quot.sound |
| `Verif.Sim.Threads.C143_exit_fails` | propext |
| `Verif.Sim.Threads.C143_store_fails` | propext, Quot.sound |
| `Verif.Sim.Threads.C143_run_fails` | propext |
| `Verif.Sim.Threads.C143_lost_fails` | propext, Quot.sound |
| `Verif.Sim.Threads.C143_clear_fails` | propext |
| `Verif.Field.C144_write_partial` | propext, Classical.choice, Quot.sound |
| `Verif.Field.C144_push_partial` | propext, Classical.choice, Quot.sound |
| `Verif.Field.C144_unconverted` | propext, Classical.choice, Quot.sound |
| `Verif.Field.C144_undone_fails` | propext, Classical.choice, Quot.sound |
| `Verif.Field.C144_behind_fails` | propext, Classical.choice, Quot.sound |
| `Verif.Field.C144_connect_fails` | propext, Classical.choice, Quot.sound |
| `Verif.Field.C145_equivalence` | propext, Quot.sound |
| `Verif.Field.C145_declared` | propext, Quot.sound |
| `Verif.Field.C145_shape_partial` | propext, Quot.sound |
| `Verif.Field.C145_refused` | propext, Classical.choice, Quot.sound |
| `Verif.Field.C145_kinds_fails` | propext, Quot.sound |
| `Verif.Field.C145_anonymous_fails` | propext, Quot.sound |
| `Verif.Field.C145_connect_fails` | propext, Classical.choice, Quot.sound |
| `Verif.Field.C145_names_fails` | propext, Classical.choice, Quot.sound |
| `Verif.Python.Gil.C146_serial` | propext |
| `Verif.Python.Gil.C146_legal` | propext, Classical.choice, Quot.sound |
| `Verif.Python.Gil.C146_one` | propext, Classical.choice, Quot.sound |
| `Verif.Python.Gil.C146_hold_fails` | propext, Quot.sound |
| `Verif.Field.Racing.C147_apart_partial` | propext, Quot.sound |
| `Verif.Field.Racing.C147_alone` | propext, Classical.choice, Quot.sound |
| `Verif.Field.Racing.C147_values_partial` | propext, Quot.sound |
| `Verif.Field.Racing.C147_connected_fails` | propext, Quot.sound |
| `Verif.Field.Racing.C147_lost_fails` | propext |
| `Verif.Field.Guarded.C148_serial` | propext, Classical.choice, Quot.sound |
| `Verif.Field.Guarded.C148_settled` | propext, Classical.choice, Quot.sound |
| `Verif.Field.Guarded.C148_updates` | propext, Classical.choice, Quot.sound |
| `Verif.Field.Guarded.C148_ends` | propext, Classical.choice, Quot.sound |
| `Verif.Field.Guarded.C148_handler_fails` | propext, Quot.sound |
| `Verif.Python.Notify.C149_gets_partial` | propext, Classical.choice, Quot.sound |
| `Verif.Python.Notify.C149_refused_partial` | propext, Classical.choice, Quot.sound |
| `Verif.Python.Notify.C149_void` | propext, Classical.choice, Quot.sound |
| `Verif.Python.Notify.C149_field` | propext, Classical.choice, Quot.sound |
| `Verif.Python.Notify.C149_ignored_fails` | propext, Classical.choice, Quot.sound |
| `Verif.Python.Notify.C149_missing_fails` | propext, Classical.choice, Quot.sound |
| `Verif.Python.Notify.C149_nul_fails` | propext, Classical.choice, Quot.sound |
| `Verif.Python.Notify.C149_number` | propext, Classical.choice, Quot.sound |
| `Verif.Sched.C15_partial` | propext, Classical.choice, Quot.sound |
| `Verif.Sched.C15_time` | propext, Classical.choice, Quot.sound |
| `Verif.Sched.C15_resume_partial` | propext, Classical.choice, Quot.sound |
| `Verif.Sched.C15_fails` | propext, Quot.sound |
| `Verif.Field.ArrHist.C150_keeps` | propext, Classical.choice, Quot.sound |
| `Verif.Field.ArrHist.C150_values` | propext, Classical.choice, Quot.sound |
| `Verif.Field.ArrHist.C150_linked` | propext, Classical.choice, Quot.sound |
| `Verif.Field.ArrHist.C150_write_partial` | propext, Classical.choice, Quot.sound |
| `Verif.Field.ArrHist.C150_fails` | propext, Classical.choice, Quot.sound |
| `Verif.Field.ArrHist.C150_ends_fails` | propext, Classical.choice, Quot.sound |
| `Verif.Persist.C151_exact_partial` | propext, Classical.choice, Quot.sound |
| `Verif.Persist.C151_sequence_partial` | propext, Classical.choice, Quot.sound |
| `Verif.Persist.C151_again` | propext, Classical.choice, Quot.sound |
| `Verif.Persist.C151_prefix` | propext, Classical.choice, Quot.sound |
| `Verif.Persist.C151_within` | propext, Quot.sound |
| `Verif.Persist.C151_string_fails` | propext, Quot.sound |
| `Verif.Persist.C151_fails` | propext, Quot.sound |
| `Verif.Python.Ids.C152_text_partial` | propext, Classical.choice, Quot.sound |
| `Verif.Python.Ids.C152_none` | propext, Classical.choice, Quot.sound |
| `Verif.Python.Ids.C152_values` | propext, Quot.sound |
| `Verif.Python.Ids.C152_data1` | propext, Classical.choice, Quot.sound |
| `Verif.Python.Ids.C152_equal_fails` | propext, Classical.choice, Quot.sound |
| `Verif.Python.Ids.C152_members_fails` | propext |
| `Verif.Python.Ids.C152_constant_fails` | propext, Quot.sound |
| `Verif.Python.Ids.C152_nul_fails` | propext, Quot.sound |
| `Verif.Python.Ids.C152_copy` | propext, Classical.choice, Quot.sound |
| `Verif.Raise.C153_same` | propext, Classical.choice, Quot.sound |
| `Verif.Raise.C153_tells` | propext, Classical.choice, Quot.sound |
| `Verif.Raise.C153_push_tells` | propext, Classical.choice, Quot.sound |
| `Verif.Raise.C153_first_partial` | propext, Classical.choice, Quot.sound |
| `Verif.Raise.C153_sender_fails` | propext, Classical.choice, Quot.sound |
| `Verif.Python.Except.C154_catch_partial` | propext, Classical.choice, Quot.sound |
| `Verif.Python.Except.C154_raised_partial` | propext, Classical.choice, Quot.sound |
| `Verif.Python.Except.C154_other` | propext, Classical.choice, Quot.sound |
| `Verif.Python.Except.C154_text_fails` | propext, Classical.choice, Quot.sound |
| `Verif.Python.Except.C154_named_fails` | propext, Classical.choice, Quot.sound |
| `Verif.Python.Except.C154_two_fails` | propext, Classical.choice, Quot.sound |
| `Verif.Field.Flags.C155_logic` | propext, Classical.choice, Quot.sound |
| `Verif.Field.Flags.C155_number` | propext, Classical.choice, Quot.sound |
| `Verif.Field.Flags.C155_or` | propext, Classical.choice, Quot.sound |
| `Verif.Field.Flags.C155_mask_fails` | propext, Classical.choice, Quot.sound |
| `Verif.Field.Flags.C155_decrement_fails` | propext, Classical.choice, Quot.sound |
| `Verif.Field.Flags.C155_shift` | propext, Classical.choice, Quot.sound |
| `Verif.Field.Flags.C155_char` | propext, Classical.choice, Quot.sound |
| `Verif.Field.Flags.C155_codes` | propext, Classical.choice, Quot.sound |
| `Verif.Field.Flags.C155_step` | propext, Classical.choice, Quot.sound |
| `Verif.Field.Flags.C155_high_fails` | propext, Quot.sound |
| `Verif.Field.Flags.C155_low_partial` | propext, Classical.choice, Quot.sound |
| `Verif.Field.Flags.C155_assign` | propext, Classical.choice, Quot.sound |
| `Verif.Field.Flags.C155_float` | propext, Classical.choice, Quot.sound |
| `Verif.Field.Flags.C155_nan_fails` | propext, Classical.choice, Quot.sound |
| `Verif.Field.Flags.C155_char_float_partial` | propext, Classical.choice, Quot.sound |
| `Verif.Field.Flags.C155_char_nan_fails` | propext, Classical.choice, Quot.sound |
| `Verif.Field.Flags.C155_char_undefined_fails` | propext, Classical.choice, Quot.sound |
| `Verif.Field.Flags.C155_assign_float` | propext, Classical.choice, Quot.sound |
| `Verif.Tree.C156_exact` | propext, Classical.choice, Quot.sound |
| `Verif.Tree.C156_ends` | propext, Classical.choice, Quot.sound |
| `Verif.Tree.C156_safe` | propext, Quot.sound |
| `Verif.Tree.C156_erased_fails` | propext, Classical.choice, Quot.sound |
| `Verif.Tree.C156_prefix` | propext, Classical.choice, Quot.sound |
| `Verif.Tree.C156_raise` | propext, Classical.choice, Quot.sound |
| `Verif.Sim.Lacking.C157_safe` | propext, Classical.choice, Quot.sound |
| `Verif.Sim.Lacking.C157_exact` | propext, Classical.choice, Quot.sound |
| `Verif.Sim.Lacking.C157_connect_fails` | propext |
| `Verif.Sim.Lacking.C157_run_fails` | propext |
| `Verif.Field.Push.C158_safe` | propext, Classical.choice, Quot.sound |
| `Verif.Field.Push.C158_prefix` | propext, Quot.sound |
| `Verif.Field.Push.C158_exact` | propext, Quot.sound |
| `Verif.Field.Push.C158_ends` | propext, Quot.sound |
| `Verif.Field.Push.C158_null_fails` | propext, Classical.choice, Quot.sound |
| `Verif.Field.Push.C158_skip_fails` | propext, Classical.choice, Quot.sound |
| `Verif.Chrono.Integral.C159_exact` | propext, Classical.choice, Quot.sound |
| `Verif.Chrono.Integral.C159_assign` | propext, Classical.choice, Quot.sound |
| `Verif.Chrono.Integral.C159_program` | propext, Classical.choice, Quot.sound |
| `Verif.Chrono.Integral.C159_postfix` | propext, Classical.choice, Quot.sound |
| `Verif.Chrono.Integral.C159_unsigned` | propext, Classical.choice, Quot.sound |
| `Verif.Chrono.Integral.C159_divides` | propext, Classical.choice, Quot.sound |
| `Verif.Chrono.Integral.C159_divide_fails` | propext, Classical.choice, Quot.sound |
| `Verif.Chrono.Integral.C159_remains` | propext, Classical.choice, Quot.sound |
| `Verif.Chrono.Integral.C159_remainder_fails` | propext, Quot.sound |
| `Verif.Chrono.Integral.C159_reconstructs` | propext, Classical.choice, Quot.sound |
| `Verif.Chrono.Integral.C159_undo` | propext, Classical.choice, Quot.sound |
| `Verif.Chrono.Integral.C159_bits` | propext, Classical.choice, Quot.sound |
| `Verif.Chrono.Integral.C159_left` | propext, Classical.choice, Quot.sound |
| `Verif.Chrono.Integral.C159_right` | propext, Classical.choice, Quot.sound |
| `Verif.Chrono.Integral.C159_shift_fails` | propext, Classical.choice, Quot.sound |
| `Verif.Event.C16_stable` | propext, Quot.sound |
| `Verif.Event.C16_injective` | propext, Classical.choice, Quot.sound |
| `Verif.Event.C16_predefined` | propext, Classical.choice, Quot.sound |
| `Verif.Event.C16_rejects` | propext |
| `Verif.Event.C16_restore` | propext, Quot.sound |
| `Verif.Event.C16_restore_fails` | propext, Quot.sound |
| `Verif.Sim.Nested.C160_files_partial` | propext, Classical.choice, Quot.sound |
| `Verif.Sim.Nested.C160_nested` | propext, Classical.choice, Quot.sound |
| `Verif.Sim.Nested.C160_right` | propext, Classical.choice, Quot.sound |
| `Verif.Sim.Nested.C160_older_fails` | propext, Classical.choice, Quot.sound |
| `Verif.Sim.Nested.C160_mixture_fails` | propext, Classical.choice, Quot.sound |
| `Verif.Text.Search.C161_search` | propext, Classical.choice, Quot.sound |
| `Verif.Text.Search.C161_part` | propext, Classical.choice, Quot.sound |
| `Verif.Text.Search.C161_read` | propext, Classical.choice, Quot.sound |
| `Verif.Text.Search.C161_write` | propext, Quot.sound |
| `Verif.Text.Search.C161_back` | propext, Quot.sound |
| `Verif.Text.Search.C161_full_fails` | propext, Quot.sound |
| `Verif.Text.Search.C161_stale_fails` | propext, Quot.sound |
| `Verif.Field.Whole.C162_assign_partial` | propext, Classical.choice, Quot.sound |
| `Verif.Field.Whole.C162_elements_partial` | propext, Quot.sound |
| `Verif.Field.Whole.C162_roundtrip_partial` | propext, Quot.sound |
| `Verif.Field.Whole.C162_self_partial` | propext, Quot.sound |
| `Verif.Field.Whole.C162_connected_fails` | propext, Classical.choice, Quot.sound |
| `Verif.Sched.Average.C163_mean_partial` | propext, Classical.choice, Quot.sound |
| `Verif.Sched.Average.C163_whole` | propext, Classical.choice, Quot.sound |
| `Verif.Sched.Average.C163_lost_fails` | propext, Classical.choice, Quot.sound |
| `Verif.Path.Published.C164_found_partial` | propext, Classical.choice, Quot.sound |
| `Verif.Path.Published.C164_own` | propext, Classical.choice, Quot.sound |
| `Verif.Path.Published.C164_outside` | propext, Quot.sound |
| `Verif.Path.Published.C164_anonymous_fails` | propext, Classical.choice, Quot.sound |
| `Verif.Path.Published.C164_outside_fails` | propext, Classical.choice, Quot.sound |
| `Verif.Path.Published.C164_reached` | propext, Classical.choice, Quot.sound |
| `Verif.Path.Published.C164_way` | propext, Classical.choice, Quot.sound |
| `Verif.Pub.Lookup.C165_named` | propext, Classical.choice, Quot.sound |
| `Verif.Pub.Lookup.C165_null_fails` | propext, Quot.sound |
| `Verif.Path.Ancestor.C166_ancestor` | propext, Classical.choice, Quot.sound |
| `Verif.Path.Ancestor.C166_order` | propext, Classical.choice, Quot.sound |
| `Verif.Path.Ancestor.C166_contains_partial` | propext, Classical.choice, Quot.sound |
| `Verif.Path.Ancestor.C166_contains_fails` | propext, Classical.choice, Quot.sound |
| `Verif.Path.Ancestor.C166_nearest` | propext, Classical.choice, Quot.sound |
| `Verif.Event.C17_snapshot` | propext, Classical.choice, Quot.sound |
| `Verif.Event.C17_once` | propext, Classical.choice, Quot.sound |
| `Verif.Event.C17_order` | propext, Quot.sound |
| `Verif.Event.C18_subscribe` | propext, Classical.choice, Quot.sound |
| `Verif.Event.C18_unsubscribe` | propext, Classical.choice, Quot.sound |
| `Verif.Event.C18_no_effect` | propext, Quot.sound |
| `Verif.Event.C19_unique` | propext, Classical.choice, Quot.sound |
| `Verif.Event.C19_usable_partial` | propext, Classical.choice, Quot.sound |
| `Verif.Event.C19_fails` | propext, Quot.sound |
| `Verif.Sched.C20_epoch` | propext, Quot.sound |
| `Verif.Sched.C20_mission` | propext, Quot.sound |
| `Verif.Sched.C20_mission_start` | propext, Quot.sound |
| `Verif.Sched.C20_read` | propext, Quot.sound |
| `Verif.Sched.C21_calls` | propext, Quot.sound |
| `Verif.Sched.C21_loop` | propext, Quot.sound |
| `Verif.Sched.C21_window_partial` | propext, Classical.choice, Quot.sound |
| `Verif.Sched.C21_fails` | propext, Quot.sound |
| `Verif.Link.C22_count_partial` | propext, Quot.sound |
| `Verif.Link.C22_remove_partial` | propext, Classical.choice, Quot.sound |
| `Verif.Link.C22_wrap_fails` | propext, Quot.sound |
| `Verif.Link.C22_modular` | propext, Quot.sound |
| `Verif.Link.C23_sources_partial` | propext, Classical.choice, Quot.sound |
| `Verif.Link.C23_fails` | none |
| `Verif.Link.C24_canRemove_partial` | propext, Classical.choice, Quot.sound |
| `Verif.Link.C24_removeLinks_partial` | propext, Classical.choice, Quot.sound |
| `Verif.Link.C24_fails` | propext |
| `Verif.Link.C24_count_fails` | propext, Quot.sound |
| `Verif.Sim.C25_partial` | propext, Classical.choice, Quot.sound |
| `Verif.Sim.C25_any_partial` | propext, Quot.sound |
| `Verif.Sim.C25_wrong_state` | propext |
| `Verif.Sim.C26_fails_init` | propext |
| `Verif.Sim.C26_partial` | propext, Classical.choice, Quot.sound |
| `Verif.Sim.C26_idle` | propext, Quot.sound |
| `Verif.Sim.C26_fails` | propext |
| `Verif.Sim.C27_partial` | propext, Quot.sound |
| `Verif.Sim.C27_fails` | propext |
| `Verif.Sim.C28` | propext, Quot.sound |
| `Verif.Sim.C28_raise` | propext, Quot.sound |
| `Verif.Sim.C28_parents_first` | propext, Quot.sound |
| `Verif.Sim.C28_once` | propext, Quot.sound |
| `Verif.Sim.C28_others` | propext, Quot.sound |
| `Verif.Sim.C28_visits` | propext, Quot.sound |
| `Verif.Sim.C29_once` | propext, Classical.choice, Quot.sound |
| `Verif.Sim.C29_next` | propext, Classical.choice, Quot.sound |
| `Verif.Sim.C29_order_partial` | propext, Classical.choice, Quot.sound |
| `Verif.Sim.C29_rejected` | propext |
| `Verif.Sim.C29_fails` | propext |
| `Verif.Sim.C29_stuck` | propext |
| `Verif.Sim.Bp.C30_partial` | propext, Classical.choice, Quot.sound |
| `Verif.Sim.Bp.C30_fails` | propext, Classical.choice, Quot.sound |
| `Verif.Sim.Bp.C30_refused` | propext, Quot.sound |
| `Verif.Sim.Bp.C30_parts` | propext, Quot.sound |
| `Verif.Sim.Bp.C30_fields` | propext |
| `Verif.Tree.C31_partial` | propext, Quot.sound |
| `Verif.Tree.C31_linear` | propext, Quot.sound |
| `Verif.Tree.C31_hooks_partial` | propext, Quot.sound |
| `Verif.Tree.C31_fails_configure` | propext |
| `Verif.Tree.C31_fails_disconnect` | propext |
| `Verif.Tree.C31_owns` | propext |
| `Verif.Tree.C32_bounds` | propext, Classical.choice, Quot.sound |
| `Verif.Tree.C32_delete` | propext, Classical.choice, Quot.sound |
| `Verif.Tree.C32_delete_error` | propext, Classical.choice, Quot.sound |
| `Verif.Tree.C32_add_partial` | propext, Classical.choice, Quot.sound |
| `Verif.Tree.C32_error_unchanged` | propext, Classical.choice, Quot.sound |
| `Verif.Tree.C32_fails` | propext, Classical.choice, Quot.sound |
| `Verif.Tree.C32_published_fails` | propext, Classical.choice, Quot.sound |
| `Verif.Tree.C33_unique` | propext, Quot.sound |
| `Verif.Tree.C33_lookup` | propext, Quot.sound |
| `Verif.Tree.C33_once` | propext, Quot.sound |
| `Verif.Tree.C33_index` | propext, Quot.sound |
| `Verif.Tree.C33_index_add` | propext, Quot.sound |
| `Verif.Tree.C34_bounds` | propext, Classical.choice, Quot.sound |
| `Verif.Tree.C34_add` | propext, Classical.choice, Quot.sound |
| `Verif.Tree.C34_remove` | propext, Classical.choice, Quot.sound |
| `Verif.Tree.C34_removeLinks` | propext, Quot.sound |
| `Verif.Tree.C34_lookup` | propext, Quot.sound |
| `Verif.Tree.C35_at_name` | propext, Quot.sound |
| `Verif.Tree.C35_order` | propext |
| `Verif.Tree.C35_at_index` | propext, Quot.sound |
| `Verif.Tree.C35_add` | propext, Classical.choice, Quot.sound |
| `Verif.Tree.C35_remove` | propext, Classical.choice, Quot.sound |
| `Verif.Tree.C35_delegate` | propext, Quot.sound |
| `Verif.Tree.C36_partial` | propext, Quot.sound |
| `Verif.Tree.C36_uniform_partial` | propext, Quot.sound |
| `Verif.Tree.C36_error_unchanged` | propext, Classical.choice, Quot.sound |
| `Verif.Tree.C36_fails` | propext |
| `Verif.Tree.C37_emit_partial` | propext, Classical.choice, Quot.sound |
| `Verif.Tree.C37_plain` | propext, Classical.choice, Quot.sound |
| `Verif.Tree.C37_subscribe` | propext, Classical.choice, Quot.sound |
| `Verif.Tree.C37_set` | propext, Classical.choice, Quot.sound |
| `Verif.Tree.C37_fails` | propext, Quot.sound |
| `Verif.Tree.C38_uuid` | propext, Quot.sound |
| `Verif.Tree.C38_all` | propext, Quot.sound |
| `Verif.Tree.C38_name` | propext, Quot.sound |
| `Verif.Path.C39_roundTrip_partial` | propext, Classical.choice, Quot.sound |
| `Verif.Path.C39_injective_partial` | propext, Classical.choice, Quot.sound |
| `Verif.Path.C39_null_partial` | propext, Classical.choice, Quot.sound |
| `Verif.Path.C39_container_fails` | propext, Classical.choice, Quot.sound |
| `Verif.Path.C39_anonymous_fails` | propext, Classical.choice, Quot.sound |
| `Verif.Path.C39_null_fails` | propext, Classical.choice, Quot.sound |
| `Verif.Path.C39_way_partial` | propext, Classical.choice, Quot.sound |
| `Verif.Path.C39_parent` | propext, Quot.sound |
| `Verif.Path.C40_slashes` | propext, Quot.sound |
| `Verif.Path.C40_dot` | propext, Quot.sound |
| `Verif.Path.C40_dot_last` | propext, Quot.sound |
| `Verif.Path.C40_dot_first` | propext, Quot.sound |
| `Verif.Path.C40_dotdot` | propext, Quot.sound |
| `Verif.Path.C40_dotdot_first` | propext, Quot.sound |
| `Verif.Path.C40_absolute` | propext, Quot.sound |
| `Verif.Path.C40_fails` | propext, Classical.choice, Quot.sound |
| `Verif.Path.C40_index` | propext, Classical.choice, Quot.sound |
| `Verif.Path.C40_parent` | propext |
| `Verif.Path.C41_checkName` | propext, Quot.sound |
| `Verif.Persist.C42_roundTrip` | propext, Classical.choice, Quot.sound |
| `Verif.Persist.C42_sequence` | propext, Classical.choice, Quot.sound |
| `Verif.Persist.C43_mismatch` | propext, Quot.sound |
| `Verif.Persist.C43_match` | propext, Classical.choice, Quot.sound |
| `Verif.Persist.C43_sequence` | propext, Classical.choice, Quot.sound |
| `Verif.Persist.C44_partial` | propext, Quot.sound |
| `Verif.Persist.C44_exact` | propext, Quot.sound |
| `Verif.Persist.C44_fails` | propext, Quot.sound |
| `Verif.Text.C45_capacity_partial` | propext, Classical.choice, Quot.sound |
| `Verif.Text.C45_construct` | propext, Classical.choice, Quot.sound |
| `Verif.Text.C45_prefix` | propext, Quot.sound |
| `Verif.Text.C45_fails` | propext, Quot.sound |
| `Verif.Text.C45_overlap_fails` | propext, Quot.sound |
| `Verif.Text.C46_copyString` | propext, Classical.choice, Quot.sound |
| `Verif.Text.C46_tight` | propext, Quot.sound |
| `Verif.Chrono.C47_exact` | propext, Classical.choice, Quot.sound |
| `Verif.Chrono.C47_algebra` | propext, Classical.choice, Quot.sound |
| `Verif.Chrono.C47_divMod` | propext, Classical.choice, Quot.sound |
| `Verif.Chrono.C47_units` | propext, Classical.choice, Quot.sound |
| `Verif.Chrono.C47_offset` | none |
| `Verif.Chrono.C47_timePoint` | propext, Classical.choice, Quot.sound |
| `Verif.Chrono.C47_coarse` | propext, Classical.choice, Quot.sound |
| `Verif.Chrono.C47_fails` | none |
| `Verif.Uuid.C48_parse_print` | propext, Classical.choice, Quot.sound |
| `Verif.Uuid.C48_print_parse` | propext, Classical.choice, Quot.sound |
| `Verif.Uuid.C48_rejected` | propext, Classical.choice, Quot.sound |
| `Verif.Uuid.C49_equality` | propext, Classical.choice, Quot.sound |
| `Verif.Uuid.C49_irreflexive` | propext |
| `Verif.Uuid.C49_transitive` | propext, Classical.choice, Quot.sound |
| `Verif.Uuid.C49_total` | propext, Classical.choice, Quot.sound |
| `Verif.Uuid.C49_hash` | propext, Classical.choice, Quot.sound |
| `Verif.Uuid.C49_value` | propext, Classical.choice, Quot.sound |
| `Verif.Any.C50_set` | propext, Classical.choice, Quot.sound |
| `Verif.Any.C50_get` | propext, Classical.choice, Quot.sound |
| `Verif.Any.C50_other` | propext, Classical.choice, Quot.sound |
| `Verif.Any.C50_init` | propext, Quot.sound |
| `Verif.Any.C50_bool` | propext |
| `Verif.Any.C51_exact_partial` | propext, Classical.choice, Quot.sound |
| `Verif.Any.C51_equivalence_partial` | propext, Classical.choice, Quot.sound |
| `Verif.Any.C51_copy_partial` | propext, Classical.choice, Quot.sound |
| `Verif.Any.C51_fails` | propext, Classical.choice, Quot.sound |
| `Verif.Any.C51_move_partial` | propext, Classical.choice, Quot.sound |
| `Verif.Any.C51_float_partial` | propext, Classical.choice, Quot.sound |
| `Verif.Any.C51_selfmove_fails` | propext, Classical.choice, Quot.sound |
| `Verif.Any.C52_partial` | propext, Classical.choice, Quot.sound |
| `Verif.Any.C52_kind` | propext, Classical.choice, Quot.sound |
| `Verif.Any.C52_fails` | propext, Classical.choice, Quot.sound |
| `Verif.Pub.C53_unique` | propext, Classical.choice, Quot.sound |
| `Verif.Pub.C53_stable` | propext, Classical.choice, Quot.sound |
| `Verif.Pub.C53_failed` | propext, Quot.sound |
| `Verif.Pub.C53_added` | propext, Classical.choice, Quot.sound |
| `Verif.Pub.C53_refused` | propext, Quot.sound |
| `Verif.Pub.C53_primitive` | propext, Classical.choice, Quot.sound |
| `Verif.Pub.C53_refs_partial` | propext, Classical.choice, Quot.sound |
| `Verif.Pub.C53_literals` | propext, Classical.choice, Quot.sound |
| `Verif.Pub.C53_fails` | propext, Classical.choice, Quot.sound |
| `Verif.Pub.C53_expand_partial` | propext, Classical.choice, Quot.sound |
| `Verif.Pub.C53_expand_fails` | propext, Classical.choice, Quot.sound |
| `Verif.Pub.C54` | propext, Classical.choice, Quot.sound |
| `Verif.Pub.C54_names` | propext, Classical.choice, Quot.sound |
| `Verif.Pub.C54_index` | propext, Classical.choice, Quot.sound |
| `Verif.Pub.C54_set` | propext, Quot.sound |
| `Verif.Pub.C54_return` | propext, Quot.sound |
| `Verif.Pub.C54_defined` | propext, Classical.choice, Quot.sound |
| `Verif.Pub.C55_check_partial` | propext, Classical.choice, Quot.sound |
| `Verif.Pub.C55_partial` | propext, Classical.choice, Quot.sound |
| `Verif.Pub.C55_return_partial` | propext, Classical.choice, Quot.sound |
| `Verif.Pub.C55_fails` | propext, Classical.choice, Quot.sound |
| `Verif.Pub.C56_invoke` | propext, Classical.choice, Quot.sound |
| `Verif.Pub.C56_request` | propext, Classical.choice, Quot.sound |
| `Verif.Pub.C56_create` | propext, Classical.choice, Quot.sound |
| `Verif.Pub.C56_creatable` | propext, Classical.choice, Quot.sound |
| `Verif.Pub.C56_getValue` | propext, Quot.sound |
| `Verif.Pub.C56_setValue` | propext, Quot.sound |
| `Verif.Pub.C56_signature` | propext, Classical.choice, Quot.sound |
| `Verif.Pub.C56_getValue_ok` | propext, Quot.sound |
| `Verif.Field.C57_forced` | propext, Classical.choice, Quot.sound |
| `Verif.Field.C57_force` | propext, Classical.choice, Quot.sound |
| `Verif.Field.C57_unforce` | propext, Classical.choice, Quot.sound |
| `Verif.Field.C57_fails` | propext, Classical.choice, Quot.sound |
| `Verif.Field.C58_wired` | propext, Classical.choice, Quot.sound |
| `Verif.Field.C58_write_partial` | propext, Classical.choice, Quot.sound |
| `Verif.Field.C58_write_plain` | propext, Classical.choice, Quot.sound |
| `Verif.Field.C58_push_partial` | propext, Classical.choice, Quot.sound |
| `Verif.Field.C58_connect_partial` | propext, Classical.choice, Quot.sound |
| `Verif.Field.C58_connect_fails_partial` | propext, Classical.choice, Quot.sound |
| `Verif.Field.C58_array_partial` | propext, Classical.choice, Quot.sound |
| `Verif.Field.C58_tree_refused` | propext, Classical.choice, Quot.sound |
| `Verif.Field.C58_tree_partial` | propext, Classical.choice, Quot.sound |
| `Verif.Field.C58_tree_disconnect` | propext, Classical.choice, Quot.sound |
| `Verif.Field.C58_connect_fails` | propext, Classical.choice, Quot.sound |
| `Verif.Field.C58_string_fails` | propext, Classical.choice, Quot.sound |
| `Verif.Field.C58_cycle` | propext, Classical.choice, Quot.sound |
| `Verif.Field.C58_array_fails` | propext, Classical.choice, Quot.sound |
| `Verif.Field.C58_array_set_fails` | propext, Classical.choice, Quot.sound |
| `Verif.Field.C58_tree_fails` | propext, Classical.choice, Quot.sound |
| `Verif.Field.C58_array_connect_partial` | propext, Classical.choice, Quot.sound |
| `Verif.Field.C58_ends` | propext, Classical.choice, Quot.sound |
| `Verif.Field.C58_tree_cycle` | propext, Classical.choice, Quot.sound |
| `Verif.Field.C58_self` | propext, Classical.choice, Quot.sound |
| `Verif.Field.C58_array_push_partial` | propext, Classical.choice, Quot.sound |
| `Verif.Field.C59_index` | propext, Classical.choice, Quot.sound |
| `Verif.Field.C59_length` | propext, Classical.choice, Quot.sound |
| `Verif.Field.C59_set` | propext, Classical.choice, Quot.sound |
| `Verif.Field.C59_set_get` | propext, Classical.choice, Quot.sound |
| `Verif.Field.C59_setAll` | propext, Classical.choice, Quot.sound |
| `Verif.Field.C59_setAll_get` | propext, Classical.choice, Quot.sound |
| `Verif.Field.C59_setAll_partial` | propext, Classical.choice, Quot.sound |
| `Verif.Field.C59_fails` | propext, Classical.choice, Quot.sound |
| `Verif.Field.C59_string8_fails` | propext, Classical.choice, Quot.sound |
| `Verif.Field.C60_simple_partial` | propext, Classical.choice, Quot.sound |
| `Verif.Field.C60_refused_partial` | propext, Classical.choice, Quot.sound |
| `Verif.Field.C60_fails` | propext, Classical.choice, Quot.sound |
| `Verif.Field.C60_array_fails` | propext, Classical.choice, Quot.sound |
| `Verif.Field.C60_size_fails` | propext, Classical.choice, Quot.sound |
| `Verif.Log.Queue.C61_order` | propext, Quot.sound |
| `Verif.Log.Queue.C61_delivered` | propext, Quot.sound |
| `Verif.Log.Queue.C61_all` | propext, Quot.sound |
| `Verif.Log.Queue.C61_bounded` | propext, Quot.sound |
| `Verif.Log.Queue.C61_progress` | propext, Quot.sound |
| `Verif.Log.Queue.C61_no_lost_wakeup` | propext, Quot.sound |
| `Verif.Log.Kinds.C62_distinct` | propext, Classical.choice, Quot.sound |
| `Verif.Log.Kinds.C62_answered` | propext, Classical.choice, Quot.sound |
| `Verif.Log.Kinds.C62_predefined` | propext, Classical.choice, Quot.sound |
| `Verif.Log.Kinds.C62_name` | propext, Classical.choice, Quot.sound |
| `Verif.Log.Kinds.C62_unknown` | propext |
| `Verif.Log.Kinds.C62_restore_partial` | propext, Classical.choice, Quot.sound |
| `Verif.Log.Kinds.C62_restore_fails` | propext |
| `Verif.Log.Kinds.C62_wraps` | propext, Classical.choice, Quot.sound |
| `Verif.Log.C63_unescape` | propext, Classical.choice, Quot.sound |
| `Verif.Log.C63_unescape_total` | propext, Classical.choice, Quot.sound |
| `Verif.Log.C63_unescape_escape` | propext, Classical.choice, Quot.sound |
| `Verif.Log.C63_trim` | propext, Quot.sound |
| `Verif.Log.C63_trim_idem` | propext, Quot.sound |
| `Verif.Log.C63_split` | propext, Classical.choice, Quot.sound |
| `Verif.Log.C63_split_total` | propext, Classical.choice, Quot.sound |
| `Verif.Log.C63_pattern` | propext, Classical.choice, Quot.sound |
| `Verif.Log.C63_pattern_partial` | propext, Classical.choice, Quot.sound |
| `Verif.Log.C63_pattern_fails` | propext, Classical.choice, Quot.sound |
| `Verif.Log.C63_default` | propext, Classical.choice, Quot.sound |
| `Verif.Log.C63_configured` | propext, Classical.choice, Quot.sound |
| `Verif.Log.C63_space` | propext, Classical.choice, Quot.sound |
| `Verif.Fallible.C64_isFailed` | propext, Classical.choice, Quot.sound |
| `Verif.Fallible.C64_getFailure` | propext, Classical.choice, Quot.sound |
| `Verif.Fallible.C64_collection` | propext, Classical.choice, Quot.sound |
| `Verif.Safe.C65_safe_partial` | propext, Quot.sound |
| `Verif.Safe.C65_emit_partial` | propext, Quot.sound |
| `Verif.Safe.C65_scheduler_partial` | propext, Quot.sound |
| `Verif.Safe.C65_returns_partial` | propext, Quot.sound |
| `Verif.Safe.C65_abort_diverges` | propext, Quot.sound |
| `Verif.Safe.C65_fails` | propext, Quot.sound |
| `Verif.Sched.Locks.C66_exclusive` | propext, Quot.sound |
| `Verif.Sched.Locks.C66_progress_partial` | propext, Quot.sound |
| `Verif.Sched.Locks.C66_alone_partial` | propext, Classical.choice, Quot.sound |
| `Verif.Sched.Locks.C66_fails` | propext, Quot.sound |
| `Verif.Sched.Post.C67_rejected` | none |
| `Verif.Sched.Post.C67_fires_partial` | propext, Classical.choice, Quot.sound |
| `Verif.Sched.Post.C67_stale_fails` | propext |
| `Verif.Sched.Post.C67_lost_fails` | propext, Quot.sound |
| `Verif.Sched.Post.C67_stop_fails` | propext |
| `Verif.Text.C68_compare` | propext, Classical.choice, Quot.sound |
| `Verif.Any.C69_set_partial` | propext, Classical.choice, Quot.sound |
| `Verif.Any.C69_fails` | propext, Classical.choice, Quot.sound |
| `Verif.Any.C69_get_partial` | propext, Classical.choice, Quot.sound |
| `Verif.Any.C69_get_fails` | propext, Classical.choice, Quot.sound |
| `Verif.Any.Own.C70_ownership_partial` | propext, Quot.sound |
| `Verif.Any.Own.C70_noLeak_partial` | propext, Quot.sound |
| `Verif.Any.Own.C70_fails` | propext |
| `Verif.Persist.C71_truncated` | propext, Classical.choice, Quot.sound |
| `Verif.Persist.C71_unchanged` | none |
| `Verif.Persist.C71_sequence` | propext, Classical.choice, Quot.sound |
| `Verif.Persist.C71_vector` | propext, Quot.sound |
| `Verif.Sim.C72_partial` | propext, Quot.sound |
| `Verif.Sim.C72_fails` | propext |
| `Verif.Field.Saved.C73_roundTrip` | propext, Quot.sound |
| `Verif.Field.Saved.C73_roundTrip_all` | propext, Quot.sound |
| `Verif.Field.Saved.C73_exact` | propext, Quot.sound |
| `Verif.Field.Saved.C73_truncated` | propext, Quot.sound |
| `Verif.Sched.C74_result` | propext, Classical.choice, Quot.sound |
| `Verif.Sched.C74_added` | propext, Classical.choice, Quot.sound |
| `Verif.Sched.C74_changed` | propext, Quot.sound |
| `Verif.Sched.C75_time_partial` | propext, Classical.choice, Quot.sound |
| `Verif.Sched.C75_executed_partial` | propext, Classical.choice, Quot.sound |
| `Verif.Pub.Marshal.C76_inject` | propext, Classical.choice, Quot.sound |
| `Verif.Pub.Marshal.C76_extract` | propext, Classical.choice, Quot.sound |
| `Verif.Pub.Marshal.C76_roundtrip` | propext, Classical.choice, Quot.sound |
| `Verif.Pub.Marshal.C76_operation` | propext, Classical.choice, Quot.sound |
| `Verif.Pub.Marshal.C76_simple` | propext, Classical.choice, Quot.sound |
| `Verif.CString.C77_partial` | propext, Quot.sound |
| `Verif.CString.C77_no_leak` | propext, Classical.choice, Quot.sound |
| `Verif.CString.C77_fails` | propext, Quot.sound |
| `Verif.Sched.Zulu.C78_fires_partial` | propext, Classical.choice, Quot.sound |
| `Verif.Sched.Zulu.C78_due_partial` | propext, Classical.choice, Quot.sound |
| `Verif.Sched.Zulu.C78_state` | propext |
| `Verif.Sched.Zulu.C78_order_partial` | propext, Classical.choice, Quot.sound |
| `Verif.Sched.Zulu.C78_early_fails` | propext |
| `Verif.Sched.Zulu.C79_partial` | propext, Classical.choice, Quot.sound |
| `Verif.Sched.Zulu.C79_progress_partial` | propext, Classical.choice, Quot.sound |
| `Verif.Sched.Zulu.C79_fails` | propext |
| `Verif.Sched.Zulu.C79_periods_partial` | propext, Classical.choice, Quot.sound |
| `Verif.Sched.Zulu.C79_period_fails` | propext, Quot.sound |
| `Verif.Sched.Zulu.C80_partial` | propext, Classical.choice, Quot.sound |
| `Verif.Sched.Zulu.C80_fails_remove` | propext |
| `Verif.Sched.Zulu.C80_fails_move` | propext |
| `Verif.Sched.Zulu.C80_fails_self` | propext |
| `Verif.Sched.Zulu.C81_ends` | propext, Quot.sound |
| `Verif.Any.C82_partial` | propext, Classical.choice, Quot.sound |
| `Verif.Float.C82_nearest_partial` | propext, Classical.choice, Quot.sound |
| `Verif.Float.C82_rounding` | propext, Classical.choice, Quot.sound |
| `Verif.Float.C82_unchanged` | propext, Classical.choice, Quot.sound |
| `Verif.Float.C82_large` | propext, Classical.choice, Quot.sound |
| `Verif.Any.C82_widen` | propext, Classical.choice, Quot.sound |
| `Verif.Any.C82_fails` | propext, Classical.choice, Quot.sound |
| `Verif.Float.C82_lost` | propext, Classical.choice, Quot.sound |
| `Verif.Mem.C83_addresses` | propext, Quot.sound |
| `Verif.Mem.C83_inside` | propext, Classical.choice, Quot.sound |
| `Verif.Mem.C83_disjoint` | propext, Classical.choice, Quot.sound |
| `Verif.Mem.C83_published` | propext, Quot.sound |
| `Verif.Mem.C84_ends_partial` | propext, Classical.choice, Quot.sound |
| `Verif.Mem.C84_fails` | propext, Quot.sound |
| `Verif.Mem.C85_read` | propext, Classical.choice, Quot.sound |
| `Verif.Mem.C85_exact` | propext, Classical.choice, Quot.sound |
| `Verif.Mem.C85_others` | propext, Classical.choice, Quot.sound |
| `Verif.Mem.C85_raised` | propext, Classical.choice, Quot.sound |
| `Verif.Mem.C85_literals` | propext, Classical.choice, Quot.sound |
| `Verif.Mem.C85_length_fails` | propext, Classical.choice, Quot.sound |
| `Verif.Mem.C86_restored` | propext, Classical.choice, Quot.sound |
| `Verif.Field.C87_start` | propext, Quot.sound |
| `Verif.Field.C87_connect` | propext, Classical.choice, Quot.sound |
| `Verif.Field.C87_kept` | propext, Classical.choice, Quot.sound |
| `Verif.Field.C87_fields_partial` | propext, Classical.choice, Quot.sound |
| `Verif.Field.C87_inputs_partial` | propext, Classical.choice, Quot.sound |
| `Verif.Field.C87_half_partial` | propext, Classical.choice, Quot.sound |
| `Verif.Field.C87_fails` | propext, Classical.choice, Quot.sound |
| `Verif.Field.C87_items_fails` | propext, Classical.choice, Quot.sound |
| `Verif.Field.C87_published_fails` | propext |
| `Verif.Field.C88_refused` | propext, Classical.choice, Quot.sound |
| `Verif.Field.C88_connect_partial` | propext, Classical.choice, Quot.sound |
| `Verif.Field.C88_push_partial` | propext, Classical.choice, Quot.sound |
| `Verif.Field.C88_fails` | propext, Classical.choice, Quot.sound |
| `Verif.Field.C88_push_fails` | propext, Classical.choice, Quot.sound |
| `Verif.Field.C88_connect_through_partial` | propext, Classical.choice, Quot.sound |
| `Verif.Field.C88_push_through_partial` | propext, Classical.choice, Quot.sound |
| `Verif.Field.C88_cycle` | propext, Classical.choice, Quot.sound |
| `Verif.Sim.Library.C89_partial` | propext, Quot.sound |
| `Verif.Sim.Library.C89_destroy_partial` | propext, Quot.sound |
| `Verif.Sim.Library.C89_returns` | propext, Quot.sound |
| `Verif.Sim.Library.C89_refused` | propext, Quot.sound |
| `Verif.Sim.Library.C89_fails` | propext |
| `Verif.Sim.Library.C89_raise_fails` | propext, Quot.sound |
| `Verif.Sim.Library.C89_exit_fails` | propext, Quot.sound |
| `Verif.Sim.Service.C90_first` | propext, Classical.choice, Quot.sound |
| `Verif.Sim.Service.C90_accepts` | propext, Classical.choice, Quot.sound |
| `Verif.Sim.Service.C90_partial` | propext, Classical.choice, Quot.sound |
| `Verif.Sim.Service.C90_fails` | propext, Quot.sound |
| `Verif.Any.Print.C91_read_partial` | propext, Classical.choice, Quot.sound |
| `Verif.Any.Print.C91_distinct_partial` | propext, Classical.choice, Quot.sound |
| `Verif.Any.Print.C91_char_partial` | propext, Classical.choice, Quot.sound |
| `Verif.Any.Print.C91_string` | propext, Classical.choice, Quot.sound |
| `Verif.Any.Print.C91_stream` | propext, Classical.choice, Quot.sound |
| `Verif.Any.Print.C91_enum` | propext, Classical.choice, Quot.sound |
| `Verif.Any.Print.C91_names` | propext, Classical.choice, Quot.sound |
| `Verif.Any.Print.C91_kinds_fails` | propext, Classical.choice, Quot.sound |
| `Verif.Any.Print.C91_char_fails` | propext, Classical.choice, Quot.sound |
| `Verif.Any.Print.C91_hex_fails` | propext, Classical.choice, Quot.sound |
| `Verif.Any.Print.C91_bases` | propext, Classical.choice, Quot.sound |
| `Verif.Any.Print.C91_unknown` | propext, Classical.choice, Quot.sound |
| `Verif.Gen.C92_published` | propext, Classical.choice, Quot.sound |
| `Verif.Gen.C92_get` | propext, Classical.choice, Quot.sound |
| `Verif.Gen.C92_set` | propext, Classical.choice, Quot.sound |
| `Verif.Gen.C92_partial` | propext, Classical.choice, Quot.sound |
| `Verif.Gen.C92_history` | propext, Classical.choice, Quot.sound |
| `Verif.Gen.C92_invoke` | propext, Classical.choice, Quot.sound |
| `Verif.Gen.C92_fails` | propext, Classical.choice, Quot.sound |
| `Verif.Conc.C93_linear` | propext, Classical.choice, Quot.sound |
| `Verif.Conc.C93_alone` | propext |
| `Verif.Conc.C93_snapshot` | propext, Classical.choice, Quot.sound |
| `Verif.Conc.C93_locks` | propext, Classical.choice, Quot.sound |
| `Verif.Conc.C93_live_partial` | propext, Classical.choice, Quot.sound |
| `Verif.Conc.C93_deadlock_fails` | propext, Classical.choice, Quot.sound |
| `Verif.Conc.C93_restore_fails` | propext, Classical.choice, Quot.sound |
| `Verif.Conc.C93_back_fails` | propext |
| `Verif.Conc.C93_time_partial` | propext, Classical.choice, Quot.sound |
| `Verif.Link.C94_counts` | propext |
| `Verif.Link.C94_partial` | propext, Classical.choice, Quot.sound |
| `Verif.Link.C94_fails` | none |
| `Verif.Sched.C95_partial` | propext, Classical.choice, Quot.sound |
| `Verif.Sched.C95_fails` | propext, Quot.sound |
| `Verif.Sched.C95_entry_fails` | propext, Quot.sound |
| `Verif.Emit.C96_same` | propext, Classical.choice, Quot.sound |
| `Verif.Emit.C96_void` | propext, Classical.choice, Quot.sound |
| `Verif.Emit.C96_number` | propext, Classical.choice, Quot.sound |
| `Verif.Emit.C96_text` | propext, Classical.choice, Quot.sound |
| `Verif.Emit.C96_fails` | propext, Classical.choice, Quot.sound |
| `Verif.Sim.C97_executing_partial` | propext, Classical.choice, Quot.sound |
| `Verif.Sim.C97_held_partial` | propext, Classical.choice, Quot.sound |
| `Verif.Sim.C97_stop` | propext, Quot.sound |
| `Verif.Sim.C97_fails` | propext |
| `Verif.Event.C98_order` | propext, Quot.sound |
| `Verif.Event.C98_calls` | propext, Classical.choice, Quot.sound |
| `Verif.Event.C98_unsubscribed` | propext, Classical.choice, Quot.sound |
| `Verif.Event.C98_unsubscribed_fails` | propext, Quot.sound |
| `Verif.Event.C98_ids` | propext, Classical.choice, Quot.sound |
| `Verif.Event.C98_accepted` | propext, Classical.choice, Quot.sound |
| `Verif.Event.C98_known_partial` | propext, Classical.choice, Quot.sound |
| `Verif.Event.C98_known_fails` | propext, Quot.sound |
| `Verif.Any.C99_same` | propext, Classical.choice, Quot.sound |
| `Verif.Any.C99_write_partial` | propext, Classical.choice, Quot.sound |
| `Verif.Any.C99_read_partial` | propext, Classical.choice, Quot.sound |
| `Verif.Any.C99_write_fails` | propext, Classical.choice, Quot.sound |
| `Verif.Any.C99_read_fails` | propext, Classical.choice, Quot.sound |
| `Verif.Any.C99_notify_fails` | propext |
