{
 "claims": [
  {
   "property": "C01",
   "status": "partial",
   "theorems": [
    "Verif.Sched.C01_due_time_partial",
    "Verif.Sched.C01_fails",
    "Verif.Sched.C02_fires_partial",
    "Verif.Sched.C09_moved_partial"
   ],
   "note": "Holds along every execution avoiding the defective calls. Excluded are the calls listed at Op.ok, each shown to be a defect in Sched/Defects.lean."
  },
  {
   "property": "C02",
   "status": "partial",
   "theorems": [
    "Verif.Sched.C02_fires_partial",
    "Verif.Sched.C02_skipped_partial",
    "Verif.Sched.C02_called_partial",
    "Verif.Sched.C02_fails"
   ],
   "note": "Full firing pattern for any history of other events, holds and resumptions; occurrences are skipped exactly if overtaken. Excluded are the calls listed at Op.ok, each shown to be a defect in Sched/Defects.lean."
  },
  {
   "property": "C03",
   "status": "partial",
   "theorems": [
    "Verif.Sched.C03_time_monotone",
    "Verif.Sched.C03_no_skip_partial",
    "Verif.Sched.C03_no_skip_fails"
   ],
   "note": "Monotonicity holds in every state. No-skip: Excluded are the calls listed at Op.ok, each shown to be a defect in Sched/Defects.lean."
  },
  {
   "property": "C04",
   "status": "partial",
   "theorems": [
    "Verif.Sched.C04_order_partial",
    "Verif.Sched.C04_immediate_first",
    "Verif.Sched.C04_order_fails"
   ],
   "note": "Immediate-first holds for every execution whose immediate events are posted by the simulation thread. Order: Excluded are the calls listed at Op.ok, each shown to be a defect in Sched/Defects.lean."
  },
  {
   "property": "C05",
   "status": "proved",
   "theorems": [
    "Verif.Sched.C05_ids_increase"
   ],
   "note": ""
  },
  {
   "property": "C06",
   "status": "partial",
   "theorems": [
    "Verif.Sched.C06_one_place_partial",
    "Verif.Sched.C06_held_partial",
    "Verif.Sched.C06_fails"
   ],
   "note": "Excluded are the calls listed at Op.ok, each shown to be a defect in Sched/Defects.lean."
  },
  {
   "property": "C07",
   "status": "proved",
   "theorems": [
    "Verif.Sched.C07_rejected_no_effect"
   ],
   "note": "Every state component is unchanged."
  },
  {
   "property": "C08",
   "status": "partial",
   "theorems": [
    "Verif.Sched.C08_never_again_partial",
    "Verif.Sched.C08_others_partial",
    "Verif.Sched.C08_fails",
    "Verif.Sched.C08_batch_fails"
   ],
   "note": "Excluded are the calls listed at Op.ok, each shown to be a defect in Sched/Defects.lean."
  },
  {
   "property": "C09",
   "status": "partial",
   "theorems": [
    "Verif.Sched.C09_moved_partial",
    "Verif.Sched.C09_past_removes_partial",
    "Verif.Sched.C09_others",
    "Verif.Sched.C09_fails"
   ],
   "note": "Excluded are the calls listed at Op.ok, each shown to be a defect in Sched/Defects.lean."
  },
  {
   "property": "C10",
   "status": "partial",
   "theorems": [
    "Verif.Sched.C10_cycle_pos_partial",
    "Verif.Sched.C10_fails",
    "Verif.Sched.C10_livelock_fails"
   ],
   "note": "SetEventCycleTime accepts non-positive values for endless events."
  },
  {
   "property": "C100",
   "status": "partial",
   "theorems": [
    "Verif.Pub.C100_same",
    "Verif.Pub.C100_request_partial",
    "Verif.Pub.C100_property_partial",
    "Verif.Pub.C100_invoke",
    "Verif.Pub.C100_request_fails",
    "Verif.Pub.C100_property_fails",
    "Verif.Pub.C100_missing_fails"
   ],
   "note": "True of all exceptions of requests of operations but InvalidAnyType, and of all of Operation::Invoke; requests of properties report the property as operation and a setter 0 parameters; a missing parameter gives an exception without message, named after the parameter."
  },
  {
   "property": "C101",
   "status": "partial",
   "theorems": [
    "Verif.Log.C101_lines",
    "Verif.Log.C101_properties",
    "Verif.Log.C101_appenders",
    "Verif.Log.C101_output_partial",
    "Verif.Log.C101_layout_fails",
    "Verif.Log.C101_layout_example",
    "Verif.Log.C101_sameFile_fails",
    "Verif.Log.C101_text"
   ],
   "note": "Parsing and the making of appenders are proved for every file. The output is proved when every appender has a layout and no two appenders share a file; a layout name that does not exist leaves a null pointer which the first accepted entry dereferences (C101_layout_fails), two appenders on one file overwrite each other (C101_sameFile_fails)."
  },
  {
   "property": "C102",
   "status": "partial",
   "theorems": [
    "Verif.Example.C102_count",
    "Verif.Example.C102_overflow",
    "Verif.Example.C102_sum_partial",
    "Verif.Example.C102_average_partial",
    "Verif.Example.C102_access",
    "Verif.Example.C102_sum_fails",
    "Verif.Example.C102_scheduled_partial"
   ],
   "note": "Proved for all calls and runs while no addition overflows; an overflow of Int32 is the undefined outcome, characterised exactly for the counters (C102_overflow) and the sum (C102_sum_partial), with a case where the sum itself would fit (C102_sum_fails). The schedule is for runs of the scheduler without the calls excluded by Op.ok, as for C02."
  },
  {
   "property": "C103",
   "status": "partial",
   "theorems": [
    "Verif.Text.C103_strings",
    "Verif.Text.C103_views",
    "Verif.Text.C103_chars",
    "Verif.Text.C103_order",
    "Verif.Text.C103_hash",
    "Verif.Text.C103_plus",
    "Verif.Text.C103_at",
    "Verif.Text.C103_arrays_partial",
    "Verif.Text.C103_nested_partial",
    "Verif.Text.C103_arrayAt",
    "Verif.Text.C103_fillSwap",
    "Verif.Text.C103_nan_fails"
   ],
   "note": "Proved for strings. The operators of arrays are for items whose operators are those of a strict total order; with a NaN the claim is false (C103_nan_fails)."
  },
  {
   "property": "C104",
   "status": "partial",
   "theorems": [
    "Verif.Sim.Dyn.C104_safe_partial",
    "Verif.Sim.Dyn.C104_visited_partial",
    "Verif.Sim.Dyn.C104_calls_partial",
    "Verif.Sim.Dyn.C104_order_partial",
    "Verif.Sim.Dyn.C104_connected_partial",
    "Verif.Sim.Dyn.C104_added_fails",
    "Verif.Sim.Dyn.C104_removed_fails"
   ],
   "note": "False in full: a component added by a hook to a container being visited is never visited (C104_added_fails); a hook that deletes an earlier component of a container being visited makes the loop use a null pointer (C104_removed_fails). Proved for all additions and for deletions from containers not reached yet."
  },
  {
   "property": "C105",
   "status": "partial",
   "theorems": [
    "Verif.Tree.Hooks.C105_linear",
    "Verif.Tree.Hooks.C105_count_partial",
    "Verif.Tree.Hooks.C105_after",
    "Verif.Tree.Hooks.C105_wrong",
    "Verif.Tree.Hooks.C105_quiet",
    "Verif.Tree.Hooks.C105_once_partial",
    "Verif.Tree.Hooks.C105_configure_fails",
    "Verif.Tree.Hooks.C105_inherited_fails",
    "Verif.Tree.Hooks.C105_disconnect_fails",
    "Verif.Tree.Hooks.C105_raise_fails"
   ],
   "note": "Proved for every tree of nested calls. Each-hook-once is false: DoConfigure is executed twice (the second time possibly in a connected component), a hook that a class inherits is executed again for it, hooks of Disconnect are executed in any state, and hooks behind one that raises are lost."
  },
  {
   "property": "C106",
   "status": "partial",
   "theorems": [
    "Verif.Field.Annot.C106_compiles",
    "Verif.Field.Annot.C106_forcible",
    "Verif.Field.Annot.C106_flags_partial",
    "Verif.Field.Annot.C106_connect_partial",
    "Verif.Field.Annot.C106_nested_fails",
    "Verif.Field.Annot.C106_input_fails"
   ],
   "note": "Forcible and rejected declarations are characterised for all types. The flags of all parts are characterised; structures cut input and output (C106_input_fails), and every Connect of an output with a structure inside a structure raises (C106_nested_fails). Outputs without nested structures connect all their parts."
  },
  {
   "property": "C107",
   "status": "partial",
   "theorems": [
    "Verif.Field.Ops.C107_exact",
    "Verif.Field.Ops.C107_modular",
    "Verif.Field.Ops.C107_undefined",
    "Verif.Field.Ops.C107_div_partial",
    "Verif.Field.Ops.C107_mod_partial",
    "Verif.Field.Ops.C107_zero",
    "Verif.Field.Ops.C107_shl",
    "Verif.Field.Ops.C107_shr",
    "Verif.Field.Ops.C107_bits",
    "Verif.Field.Ops.C107_forced",
    "Verif.Field.Ops.C107_assign",
    "Verif.Field.Ops.C107_iterator",
    "Verif.Field.Ops.C107_write",
    "Verif.Field.Ops.C107_writeAt",
    "Verif.Field.Ops.C107_writeRev",
    "Verif.Field.Ops.C107_copy_partial",
    "Verif.Field.Ops.C107_copyRev_partial",
    "Verif.Field.Ops.C107_mul_fails",
    "Verif.Field.Ops.C107_sign_fails",
    "Verif.Field.Ops.C107_fill_fails"
   ],
   "note": "Partial: the statement is false for *= of small unsigned types, / and % with mixed signs, and fill (the three _fails theorems). Operators with floating point numbers: see C135; copies of strings and to arrays of other kinds are not covered."
  },
  {
   "property": "C108",
   "status": "partial",
   "theorems": [
    "Verif.Tree.Gone.C108_safe_partial",
    "Verif.Tree.Gone.C108_dangling_partial",
    "Verif.Tree.Gone.C108_removed_partial",
    "Verif.Tree.Gone.C108_nested_fails",
    "Verif.Tree.Gone.C108_fields_fails",
    "Verif.Tree.Gone.C108_source_fails",
    "Verif.Tree.Gone.C108_stale_fails"
   ],
   "note": "Proved for careful programs (registered links, bottom-up RemoveLinks, own links dropped, at most one input of a component per output); the plain protocol is refuted by the four _fails theorems. Pointers held by the scheduler and event manager are not in this model."
  },
  {
   "property": "C109",
   "status": "partial",
   "theorems": [
    "Verif.Chrono.Compare.C109_consistent",
    "Verif.Chrono.Compare.C109_durations",
    "Verif.Chrono.Compare.C109_integers_partial",
    "Verif.Chrono.Compare.C109_chrono",
    "Verif.Chrono.Compare.C109_chrono_partial",
    "Verif.Chrono.Compare.C109_literals",
    "Verif.Chrono.Compare.C109_unsigned_fails",
    "Verif.Chrono.Compare.C109_picoseconds_fails",
    "Verif.Chrono.Compare.C109_hours_fails",
    "Verif.Chrono.Compare.C109_nan_fails",
    "Verif.Chrono.Compare.C109_literal_fails"
   ],
   "note": "Holds except for UInt64 operands with negative durations, differences below a nanosecond, nanoseconds outside 64 bits, NaN, literals from 2^63 (refuted by the _fails theorems). Floating point operands: see C134."
  },
  {
   "property": "C11",
   "status": "partial",
   "theorems": [
    "Verif.Sched.C11_next_le_partial",
    "Verif.Sched.C11_next_min_partial",
    "Verif.Sched.C11_fails"
   ],
   "note": "Excluded are the calls listed at Op.ok, each shown to be a defect in Sched/Defects.lean."
  },
  {
   "property": "C110",
   "status": "partial",
   "theorems": [
    "Verif.Log.Threads.C110_order_partial",
    "Verif.Log.Threads.C110_named",
    "Verif.Log.Threads.C110_entries",
    "Verif.Log.Threads.C110_times",
    "Verif.Log.Threads.C110_moment_partial",
    "Verif.Log.Threads.C110_live",
    "Verif.Log.Threads.C110_restore_fails",
    "Verif.Log.Threads.C110_moment_fails"
   ],
   "note": "Every interleaving. One after the other: proved unless a Restore takes effect while a query adds a name (C110_restore_fails). Times of one entry: proved unless the simulation time advances meanwhile (C110_moment_fails)."
  },
  {
   "property": "C111",
   "status": "partial",
   "theorems": [
    "Verif.Raise.C111_add",
    "Verif.Raise.C111_delete",
    "Verif.Raise.C111_reference",
    "Verif.Raise.C111_null",
    "Verif.Raise.C111_collection",
    "Verif.Raise.C111_source",
    "Verif.Raise.C111_factory",
    "Verif.Raise.C111_life",
    "Verif.Raise.C111_events",
    "Verif.Raise.C111_times",
    "Verif.Raise.C111_types",
    "Verif.Raise.C111_null_fails",
    "Verif.Raise.C111_event_time_fails",
    "Verif.Raise.C111_enumeration_fails"
   ],
   "note": "False of the code as stated: AddComponent(nullptr) (C111_null_fails), times of mission and epoch events (C111_event_time_fails), kind of an enumeration of an impossible size (C111_enumeration_fails). The rest is proved. Texts of the messages and lifetimes of the senders are not modelled."
  },
  {
   "property": "C112",
   "status": "partial",
   "theorems": [
    "Verif.Raise.C112_same",
    "Verif.Raise.C112_item_partial",
    "Verif.Raise.C112_all_partial",
    "Verif.Raise.C112_field_partial",
    "Verif.Raise.C112_index_fails",
    "Verif.Raise.C112_class_fails",
    "Verif.Raise.C112_null_fails",
    "Verif.Raise.C112_kinds_fails"
   ],
   "note": "False of the code as stated: indexes from 2^63 (C112_index_fails), the class of the exception (C112_class_fails), null strings (C112_null_fails), the order of the kinds (C112_kinds_fails). Exceptions of the fields a field pushes to: see C153."
  },
  {
   "property": "C113",
   "status": "partial",
   "theorems": [
    "Verif.Sim.Packages.C113_load_partial",
    "Verif.Sim.Packages.C113_end_partial",
    "Verif.Sim.Packages.C113_once",
    "Verif.Sim.Packages.C113_again",
    "Verif.Sim.Packages.C113_result",
    "Verif.Sim.Packages.C113_two_fails",
    "Verif.Sim.Packages.C113_retry_fails",
    "Verif.Sim.Packages.C113_state_fails",
    "Verif.Sim.Packages.C113_address_fails"
   ],
   "note": "Proved for programs that initialise packages by LoadLibrary only, in a state in which services may be added, and not with a simulator that has seen another one destroyed; that each of these conditions is needed is shown by the _fails theorems. Unconditional: nothing is registered twice, a load repeated at once changes nothing, and the result of Initialise."
  },
  {
   "property": "C114",
   "status": "partial",
   "theorems": [
    "Verif.Sim.Ending.C114_destroy_partial",
    "Verif.Sim.Ending.C114_calm_partial",
    "Verif.Sim.Ending.C114_wait",
    "Verif.Sim.Ending.C114_exit_fails",
    "Verif.Sim.Ending.C114_abort_fails",
    "Verif.Sim.Ending.C114_order_fails",
    "Verif.Sim.Ending.C114_end_partial",
    "Verif.Sim.Ending.C114_works"
   ],
   "note": "Proved for every interleaving when the simulator is destroyed in Standby or Executing, or when no Zulu entry point runs then and the scheduler is deleted before the time keeper; and without aborts in every case. False otherwise: after Abort the thread is not waited for before components are deleted; an Exit from a Zulu entry point ends the program later."
  },
  {
   "property": "C115",
   "status": "partial",
   "theorems": [
    "Verif.Chrono.Text.C115_dateTime_partial",
    "Verif.Chrono.Text.C115_duration",
    "Verif.Chrono.Text.C115_reads",
    "Verif.Chrono.Text.C115_stream",
    "Verif.Chrono.Text.C115_output_partial",
    "Verif.Chrono.Text.C115_notADate_fails",
    "Verif.Chrono.Text.C115_notADuration_fails",
    "Verif.Chrono.Text.C115_late_fails"
   ],
   "note": "Proved for every library that reads back what it prints. Missing: date-times after 2262-04-11 (undefined); texts that cannot be parsed are not refused. The date library itself is a parameter."
  },
  {
   "property": "C116",
   "status": "partial",
   "theorems": [
    "Verif.Sim.Writer.C116_complete_partial",
    "Verif.Sim.Writer.C116_prefix",
    "Verif.Sim.Writer.C116_told_partial",
    "Verif.Sim.Writer.C116_restore_partial",
    "Verif.Sim.Writer.C116_cut",
    "Verif.Sim.Writer.C116_full_fails",
    "Verif.Sim.Writer.C116_lost_fails",
    "Verif.Sim.Writer.C116_standby_fails"
   ],
   "note": "Proved with room on the device; without, at most the contents of the buffer are lost silently, and such a file is refused by Restore. False: full devices, the old breakpoint after an exception, the events at the end of Store."
  },
  {
   "property": "C117",
   "status": "partial",
   "theorems": [
    "Verif.Python.Index.C117_getitem_partial",
    "Verif.Python.Index.C117_negative_fails",
    "Verif.Python.Index.C117_safe",
    "Verif.Python.Index.C117_for",
    "Verif.Python.Index.C117_name",
    "Verif.Python.Index.C117_delete_container_partial",
    "Verif.Python.Index.C117_delete_reference_partial",
    "Verif.Python.Index.C117_delete_reference_fails",
    "Verif.Python.Index.C117_delete_name",
    "Verif.Python.Index.C117_set_get",
    "Verif.Python.Index.C117_set",
    "Verif.Python.Index.C117_value_partial",
    "Verif.Python.Index.C117_delete_outside"
   ],
   "note": "Indexes that are not negative, names, iteration, deletion and assignment proved; negative indexes are always refused (C117_negative_fails), del of a doubly referenced component removes another position (C117_delete_reference_fails)."
  },
  {
   "property": "C118",
   "status": "partial",
   "theorems": [
    "Verif.Python.Value.C118_int",
    "Verif.Python.Value.C118_bool",
    "Verif.Python.Value.C118_char",
    "Verif.Python.Value.C118_string_partial",
    "Verif.Python.Value.C118_nul_fails",
    "Verif.Python.Value.C118_float64",
    "Verif.Python.Value.C118_float32_partial",
    "Verif.Python.Value.C118_float32_fails",
    "Verif.Python.Value.C118_read",
    "Verif.Python.Value.C118_notUtf8_fails",
    "Verif.Python.Value.C118_field",
    "Verif.Python.Value.C118_kind",
    "Verif.Python.Value.C118_increment",
    "Verif.Python.Value.C118_other",
    "Verif.Python.Value.C118_truth_partial",
    "Verif.Python.Value.C118_truth_fails",
    "Verif.Python.Value.C118_refused"
   ],
   "note": "Proved for every integer kind and integer, for truth values, characters, texts without U+0000 and Float64. False of the code, with witnesses: texts with U+0000 are cut (ecss_smp.cpp:505), Float32 rounds silently (ecss_smp.cpp:529), texts that are not UTF-8 cannot be read, a character in a condition raises. The casts of pybind11 are modelled from its source, which is not in the repository."
  },
  {
   "property": "C119",
   "status": "partial",
   "theorems": [
    "Verif.Python.Call.C119_bound",
    "Verif.Python.Call.C119_called",
    "Verif.Python.Call.C119_errors",
    "Verif.Python.Call.C119_result",
    "Verif.Python.Call.C119_names_partial",
    "Verif.Python.Call.C119_names_fails",
    "Verif.Python.Call.C119_keyword_fails",
    "Verif.Python.Call.C119_unconverted"
   ],
   "note": "Binding, errors and results are proved in full for every reachable operation. False of the code: parameters named by a reserved word cannot be given by keyword under their Python name, and async/await are missing from the reserved words (ecss_smp.cpp:546-551)."
  },
  {
   "property": "C12",
   "status": "partial",
   "theorems": [
    "Verif.Sched.C12_no_ub_partial",
    "Verif.Sched.C12_iterator_fails",
    "Verif.Sched.C12_event_fails",
    "Verif.Sched.C12_lookup_fails",
    "Verif.Sched.C12_announce_fails",
    "Verif.Sched.C12_overflow_fails",
    "Verif.Sched.C12_add_overflow_fails"
   ],
   "note": "Excluded are the calls listed at Op.ok, each shown to be a defect in Sched/Defects.lean. Overflow is excluded too."
  },
  {
   "property": "C120",
   "status": "partial",
   "theorems": [
    "Verif.Python.Run.C120_exact_partial",
    "Verif.Python.Run.C120_near",
    "Verif.Python.Run.C120_nearest_fails",
    "Verif.Python.Run.C120_range_fails",
    "Verif.Python.Run.C120_negative",
    "Verif.Python.Run.C120_run_partial",
    "Verif.Python.Run.C120_dangling_fails"
   ],
   "note": "Exact for whole amounts up to 2^53 ns; error bound for amounts that are not negative. False of the code: truncation instead of rounding (C120_nearest_fails), undefined conversion beyond 292 years (C120_range_fails), an event of a dead entry point is left when the simulator refuses (C120_dangling_fails)."
  },
  {
   "property": "C121",
   "status": "partial",
   "theorems": [
    "Verif.Python.Class.C121_isinstance_partial",
    "Verif.Python.Class.C121_order",
    "Verif.Python.Class.C121_direct",
    "Verif.Python.Class.C121_unlisted_fails",
    "Verif.Python.Class.C121_factory_fails",
    "Verif.Python.Class.C121_collection_fails"
   ],
   "note": "Proved for every set of interfaces of the table. False for IFactory and collections, which the table does not contain."
  },
  {
   "property": "C122",
   "status": "partial",
   "theorems": [
    "Verif.Python.Attr.C122_get_partial",
    "Verif.Python.Attr.C122_child",
    "Verif.Python.Attr.C122_item",
    "Verif.Python.Attr.C122_set",
    "Verif.Python.Attr.C122_set_int",
    "Verif.Python.Attr.C122_typo",
    "Verif.Python.Attr.C122_add",
    "Verif.Python.Attr.C122_iadd",
    "Verif.Python.Attr.C122_member_fails",
    "Verif.Python.Attr.C122_hidden_fails",
    "Verif.Python.Attr.C122_none_fails",
    "Verif.Python.Attr.C122_assign_fails"
   ],
   "note": "Holds for every object that is not a field; false for attributes of fields, names of methods, None, and assignments to structures and arrays."
  },
  {
   "property": "C123",
   "status": "partial",
   "theorems": [
    "Verif.Tree.Reent.C123_safe_partial",
    "Verif.Tree.Reent.C123_deleted_partial",
    "Verif.Tree.Reent.C123_refused_partial",
    "Verif.Tree.Reent.C123_alone",
    "Verif.Tree.Reent.C123_lower_partial",
    "Verif.Tree.Reent.C123_clear_partial",
    "Verif.Tree.Reent.C123_earlier_fails",
    "Verif.Tree.Reent.C123_grow_fails",
    "Verif.Tree.Reent.C123_self_fails",
    "Verif.Tree.Reent.C123_endless_fails",
    "Verif.Tree.Reent.C123_lower_fails",
    "Verif.Tree.Reent.C123_clear_fails",
    "Verif.Tree.Reent.C123_terminate_fails"
   ],
   "note": "Proved for hooks that delete only components added after their own and that add only within the capacity of the vector. Otherwise false: iterator invalidated (C123_earlier_fails, C123_grow_fails), destroyed twice (C123_self_fails, C123_clear_fails), endless (C123_endless_fails), lower limit not kept (C123_lower_fails), program ended (C123_terminate_fails)."
  },
  {
   "property": "C124",
   "status": "partial",
   "theorems": [
    "Verif.Python.Hints.C124_read_partial",
    "Verif.Python.Hints.C124_defined",
    "Verif.Python.Hints.C124_classes",
    "Verif.Python.Hints.C124_attributes_partial",
    "Verif.Python.Hints.C124_unpublished_fails",
    "Verif.Python.Hints.C124_member_fails",
    "Verif.Python.Hints.C124_keyword_fails",
    "Verif.Python.Hints.C124_quote_fails",
    "Verif.Python.Hints.C124_fallible_fails"
   ],
   "note": "False in full: see the _fails theorems. Proved for every tree of published objects with names that are identifiers of Python and descriptions that can stand between triple quotes: the file is written, read back by an independent reader, its classes can be created and describe the objects, and declared chains of attributes through components exist. A description with a backslash is left out (Python would read an escape sequence)."
  },
  {
   "property": "C125",
   "status": "proved",
   "theorems": [
    "Verif.Pub.C125_construct",
    "Verif.Pub.C125_kind",
    "Verif.Pub.C125_registered",
    "Verif.Pub.C125_valid",
    "Verif.Pub.C125_texts",
    "Verif.Pub.C125_extended",
    "Verif.Pub.C125_each"
   ],
   "note": "The sizes of the enumerations come from headers outside the repository (four bytes). C125_extended shows that literals can be added behind those of the standard."
  },
  {
   "property": "C126",
   "status": "partial",
   "theorems": [
    "Verif.Tree.Make.C126_memory_partial",
    "Verif.Tree.Make.C126_create_partial",
    "Verif.Tree.Make.C126_register_partial",
    "Verif.Tree.Make.C126_typed",
    "Verif.Tree.Make.C126_fails",
    "Verif.Tree.Make.C126_make_partial",
    "Verif.Tree.Make.C126_delete",
    "Verif.Tree.Make.C126_null_fails"
   ],
   "note": "False in full: C126_fails shows that registering a factory twice deletes the registered one, then CreateInstance and the destructor use it. Proved for all sequences in which a factory is registered by its owner, callbacks return an instance or throw, and only existing instances are deleted."
  },
  {
   "property": "C127",
   "status": "partial",
   "theorems": [
    "Verif.Raise.Flow.C127_connect_partial",
    "Verif.Raise.Flow.C127_connect_fails",
    "Verif.Raise.Flow.C127_published",
    "Verif.Raise.Flow.C127_null",
    "Verif.Raise.Flow.C127_state",
    "Verif.Raise.Flow.C127_library",
    "Verif.Raise.Flow.C127_cause",
    "Verif.Raise.Flow.C127_load",
    "Verif.Raise.Flow.C127_null_library",
    "Verif.Raise.Flow.C127_read",
    "Verif.Raise.Flow.C127_end_fails",
    "Verif.Raise.Flow.C127_open_fails",
    "Verif.Raise.Flow.C127_restore",
    "Verif.Raise.Flow.C127_truncated"
   ],
   "note": "Exact for published outputs, the state of the simulator, named libraries, reads and breakpoints. False in full: FieldAlreadyConnected of fields of components is raised for fields that are not connected (C127_connect_fails), the end of the file is never named (C127_end_fails), a directory that cannot be made raises an exception that is not of the standard (C127_open_fails)."
  },
  {
   "property": "C128",
   "status": "partial",
   "theorems": [
    "Verif.Raise.Life.C128_field_partial",
    "Verif.Raise.Life.C128_field_fails",
    "Verif.Raise.Life.C128_made",
    "Verif.Raise.Life.C128_same",
    "Verif.Raise.Life.C128_type_partial",
    "Verif.Raise.Life.C128_type_fails",
    "Verif.Raise.Life.C128_type_made",
    "Verif.Raise.Life.C128_component_partial",
    "Verif.Raise.Life.C128_component_fails"
   ],
   "note": "After an exception exactly the objects from before exist, and when the sender is alive is characterised. Missing because false of the code: the sender of an exception raised inside the constructor of a field, of an array or class type or of a component's field is destroyed (_fails theorems)."
  },
  {
   "property": "C129",
   "status": "partial",
   "theorems": [
    "Verif.Sched.Pacing.C129_not_ahead",
    "Verif.Sched.Pacing.C129_real_time",
    "Verif.Sched.Pacing.C129_catches_up",
    "Verif.Sched.Pacing.C129_speed_partial",
    "Verif.Sched.Pacing.C129_nan_fails",
    "Verif.Sched.Pacing.C129_defined_partial",
    "Verif.Sched.Pacing.C129_end_fails",
    "Verif.Sched.Pacing.C129_end_default"
   ],
   "note": "Never ahead and never late without need, for runs of any length whose slots are less than 104 days apart; the time between the two readings of the clock in a turn is lost in each turn and appears in the bound. Not true of the code: SetTargetSpeed keeps a NaN, whose conversion is undefined; at half speed or less the delay before the hold event is undefined."
  },
  {
   "property": "C13",
   "status": "partial",
   "theorems": [
    "Verif.Sched.C13_zulu_independent_partial",
    "Verif.Sched.C13_fails"
   ],
   "note": "Excluded are the calls listed at Op.ok, each shown to be a defect in Sched/Defects.lean."
  },
  {
   "property": "C130",
   "status": "partial",
   "theorems": [
    "Verif.Python.Oper.C130_binary",
    "Verif.Python.Oper.C130_compare",
    "Verif.Python.Oper.C130_expr_partial",
    "Verif.Python.Oper.C130_missing_fails",
    "Verif.Python.Oper.C130_pos_fails",
    "Verif.Python.Oper.C130_text_fails",
    "Verif.Python.Oper.C130_augmented_partial",
    "Verif.Python.Oper.C130_augmented_done",
    "Verif.Python.Oper.C130_self",
    "Verif.Python.Oper.C130_frame",
    "Verif.Python.Oper.C130_live",
    "Verif.Python.Oper.C130_local_fails",
    "Verif.Python.Oper.C130_property_fails"
   ],
   "note": "Proved for every expression with the operators that the binding defines, every program and every behaviour of Python on plain values. False of the code, with witnesses: // % ** are not defined, +e is the value itself, a text has no truth value, += on a local name rebinds it, a property is not converted. Python's order of method calls and pybind11's comparison are modelled from their documentation. The method name __nq__ (for __ne__) in the binding has no effect, != is the negation of __eq__."
  },
  {
   "property": "C131",
   "status": "partial",
   "theorems": [
    "Verif.Event.Restoring.C131_quiet_partial",
    "Verif.Event.Restoring.C131_single",
    "Verif.Event.Restoring.C131_restored",
    "Verif.Event.Restoring.C131_repaired",
    "Verif.Event.Restoring.C131_truncated_fails",
    "Verif.Event.Restoring.C131_standard_fails",
    "Verif.Event.Restoring.C131_emit_fails",
    "Verif.Event.Restoring.C131_query_fails",
    "Verif.Event.Restoring.C131_loop_fails"
   ],
   "note": "Holds for one thread, and for any threads that are idle while another is in Restore, if the breakpoint is complete or refused at once; a complete breakpoint repairs any state. False for a breakpoint that ends too early (dangling references, other ids for the events of the standard), and for calls of other threads during Restore."
  },
  {
   "property": "C132",
   "status": "partial",
   "theorems": [
    "Verif.Sim.C132_settled_partial",
    "Verif.Sim.C132_offers",
    "Verif.Sim.C132_building",
    "Verif.Sim.C132_stuck",
    "Verif.Sim.C132_fails"
   ],
   "note": "Proved for all histories without exceptions and, with exceptions, that the accepted operations depend on the state only. False with exceptions: Connect, Initialise, Store, Restore and Reconnect leave the simulator in the state of the transition for ever."
  },
  {
   "property": "C133",
   "status": "partial",
   "theorems": [
    "Verif.Sched.C133_refused_partial",
    "Verif.Sched.C133_cut",
    "Verif.Sched.C133_run_fails",
    "Verif.Sched.C133_id_fails"
   ],
   "note": "Proved: a file refused at its beginning changes nothing, and exactly what is left when the file ends between the members. False: the next run raises std::out_of_range, or identifiers are given out twice."
  },
  {
   "property": "C134",
   "status": "partial",
   "theorems": [
    "Verif.Chrono.Floating.C134_order",
    "Verif.Chrono.Floating.C134_exact_partial",
    "Verif.Chrono.Floating.C134_equal_fails",
    "Verif.Chrono.Floating.C134_assign",
    "Verif.Chrono.Floating.C134_compound_partial",
    "Verif.Chrono.Floating.C134_near",
    "Verif.Chrono.Floating.C134_identity_fails",
    "Verif.Chrono.Floating.C134_defined_fails",
    "Verif.Chrono.Floating.C134_infinite",
    "Verif.Chrono.Floating.C134_chrono_partial",
    "Verif.Chrono.Floating.C134_nearest_fails"
   ],
   "note": "Exact for durations of at most 2^53 ns (double) or 2^24 ns (float) and results the type has; order and an error bound for all durations. Refuted beyond (the _fails theorems). long double operands and, for the error bound of chrono counts, periods that are no whole number of nanoseconds are not covered."
  },
  {
   "property": "C135",
   "status": "partial",
   "theorems": [
    "Verif.Field.Floating.C135_nearest",
    "Verif.Field.Floating.C135_integer_operand",
    "Verif.Field.Floating.C135_float_partial",
    "Verif.Field.Floating.C135_twice_fails",
    "Verif.Field.Floating.C135_increment_partial",
    "Verif.Field.Floating.C135_increment_fails",
    "Verif.Field.Floating.C135_integer_partial",
    "Verif.Field.Floating.C135_small",
    "Verif.Field.Floating.C135_nan",
    "Verif.Field.Floating.C135_infinite",
    "Verif.Field.Floating.C135_integer_fails",
    "Verif.Field.Floating.C135_forced",
    "Verif.Field.Floating.C135_assign",
    "Verif.Field.Floating.C135_undefined"
   ],
   "note": "Holds when the value has at most 53 (24) bits and, for a float field with a double operand, the exact result is a double; refuted otherwise (the _fails theorems). Fields of type bool and char with integer operands: see C155; with floating point operands they are not covered."
  },
  {
   "property": "C136",
   "status": "partial",
   "theorems": [
    "Verif.Python.Own.C136_safe_partial",
    "Verif.Python.Own.C136_drop_partial",
    "Verif.Python.Own.C136_others",
    "Verif.Python.Own.C136_end_partial",
    "Verif.Python.Own.C136_only_partial",
    "Verif.Python.Own.C136_live_partial",
    "Verif.Python.Own.C136_one_partial",
    "Verif.Python.Own.C136_again",
    "Verif.Python.Own.C136_which",
    "Verif.Python.Own.C136_take_fails",
    "Verif.Python.Own.C136_member_fails",
    "Verif.Python.Own.C136_leak_fails",
    "Verif.Python.Own.C136_stale_fails",
    "Verif.Python.Own.C136_delete",
    "Verif.Python.Own.C136_made",
    "Verif.Python.Own.C136_balance"
   ],
   "note": "Proved of programs that get their objects by functions with a policy, and that use no object they have deleted; refuted of the five functions that name no policy. pybind11 itself (its policies and the registration of wrappers) is trusted; threads and exceptions are not modelled."
  },
  {
   "property": "C137",
   "status": "partial",
   "theorems": [
    "Verif.Sim.Holders.C137_safe_partial",
    "Verif.Sim.Holders.C137_pointers_partial",
    "Verif.Sim.Holders.C137_take_back",
    "Verif.Sim.Holders.C137_late",
    "Verif.Sim.Holders.C137_event_fails",
    "Verif.Sim.Holders.C137_subscription_fails",
    "Verif.Sim.Holders.C137_init_fails",
    "Verif.Sim.Holders.C137_emission_fails",
    "Verif.Sim.Holders.C137_self_fails",
    "Verif.Sim.Holders.C137_slot_fails",
    "Verif.Sim.Holders.C137_immediate_fails",
    "Verif.Sim.Holders.C137_unsubscribe_fails",
    "Verif.Sim.Holders.C137_reuse_fails",
    "Verif.Sim.Holders.C137_emission_partial",
    "Verif.Sim.Holders.C137_initialise_partial",
    "Verif.Sim.Holders.C137_current",
    "Verif.Sim.Holders.C137_hold",
    "Verif.Sim.Holders.C137_others"
   ],
   "note": "False of the code: entry points are kept by plain pointers, and their destructor tells nobody. Proved of careful programs, whose condition is in HoldersSpec.lean: nothing is undefined, and every pointer kept points to an entry point that exists. A component whose events and subscriptions are its only registrations can take them back and be deleted when nothing is being executed, and leaves those of others. The _fails theorems: pending events, subscriptions, the copy of an emission in progress, an entry point that deletes its own component, events due in the same slot, immediate events, entry points of the initialisation, unsubscribing late, and reuse of an address. Not modelled: exceptions of entry points, several threads."
  },
  {
   "property": "C138",
   "status": "partial",
   "theorems": [
    "Verif.Sim.Matched.C138_once",
    "Verif.Sim.Matched.C138_state",
    "Verif.Sim.Matched.C138_matched_partial",
    "Verif.Sim.Matched.C138_end_partial",
    "Verif.Sim.Matched.C138_destroy_partial",
    "Verif.Sim.Matched.C138_exit",
    "Verif.Sim.Matched.C138_order",
    "Verif.Sim.Matched.C138_abort_fails",
    "Verif.Sim.Matched.C138_exception_fails",
    "Verif.Sim.Matched.C138_connect_fails",
    "Verif.Sim.Matched.C138_init_fails",
    "Verif.Sim.Matched.C138_child_fails",
    "Verif.Sim.Matched.C138_exit_fails",
    "Verif.Sim.Matched.C138_terminate_fails"
   ],
   "note": "False of the code in general. Every program: at most one connection, one disconnection after it, one destruction, last. Careful programs: what is destroyed was disconnected if it was connected. Proved failures, for every state: Abort; an exception of Connect, Initialise, Store, Restore; DoDisconnect that raises in Exit or in the destructor; the components below a component that is deleted."
  },
  {
   "property": "C139",
   "status": "partial",
   "theorems": [
    "Verif.Sim.Matched.C139_off",
    "Verif.Sim.Matched.C139_delete_partial",
    "Verif.Sim.Matched.C139_exit",
    "Verif.Sim.Matched.C139_exit_fails",
    "Verif.Sim.Matched.C139_exit_partial"
   ],
   "note": "False of the code: Exit disconnects the services before the models, so that a model that unsubscribes, emits or adds an event in DoDisconnect makes the service follow a null pointer. Proved: the exact condition, and that a deletion while the services are connected is safe."
  },
  {
   "property": "C14",
   "status": "partial",
   "theorems": [
    "Verif.Sched.RunFor.C14_bound_partial",
    "Verif.Sched.RunFor.C14_held_partial",
    "Verif.Sched.RunFor.C14_fails",
    "Verif.Sched.RunFor.C14_jump_fails"
   ],
   "note": "Time bound and hold for all histories without SetSimulationTime; an interrupted Run(d) leaves its event behind (C14_fails)"
  },
  {
   "property": "C140",
   "status": "partial",
   "theorems": [
    "Verif.Python.Case.C140_alone_partial",
    "Verif.Python.Case.C140_destroyed_partial",
    "Verif.Python.Case.C140_matched_partial",
    "Verif.Python.Case.C140_passed",
    "Verif.Python.Case.C140_standby_partial",
    "Verif.Python.Case.C140_standby_fails",
    "Verif.Python.Case.C140_exit_fails",
    "Verif.Python.Case.C140_base_fails",
    "Verif.Python.Case.C140_outlive"
   ],
   "note": "False in general: if DoDisconnect raises in Exit, tearDown does not delete the simulator (C140_exit_fails); if SystemExit or another exception that is no Exception leaves loadAssembly, setUp does not (C140_base_fails): with a runner that keeps failed tests, the simulator is alive in all later tests. setUp returns when the assembly has aborted the simulation (C140_standby_fails). Proved: for tests whose components can be disconnected no other simulator is ever alive and each component is destroyed once (C140_alone_partial, C140_destroyed_partial), and disconnected before if nothing raises in the simulator (C140_matched_partial); no exception is lost (C140_passed); the simulator is in Standby if the assembly only adds components (C140_standby_partial)."
  },
  {
   "property": "C141",
   "status": "partial",
   "theorems": [
    "Verif.Sched.ZuluRestore.C141_safe_partial",
    "Verif.Sched.ZuluRestore.C141_same_partial",
    "Verif.Sched.ZuluRestore.C141_lost_fails",
    "Verif.Sched.ZuluRestore.C141_terminate_fails",
    "Verif.Sched.ZuluRestore.C141_reuse_fails",
    "Verif.Sched.ZuluRestore.C141_running_fails"
   ],
   "note": "Proved where Restore is called while no Zulu entry point runs and while the Zulu events are those of the file; false otherwise, since _zulu_events_table is neither stored nor restored."
  },
  {
   "property": "C142",
   "status": "partial",
   "theorems": [
    "Verif.Sched.HoldLater.C142_request",
    "Verif.Sched.HoldLater.C142_time_partial",
    "Verif.Sched.HoldLater.C142_held_partial",
    "Verif.Sched.HoldLater.C142_twice_fails",
    "Verif.Sched.HoldLater.C142_stale_fails",
    "Verif.Sched.HoldLater.C142_ended_fails",
    "Verif.Sched.HoldLater.C142_late_fails"
   ],
   "note": "Proved for all calls by entry points, subscribers and other threads as long as the simulation is not aborted. False: a second request before the hold raises EntryPointAlreadySubscribed, which aborts the simulation; Hold(true) leaves a pending request, which holds the next run; no hold when there are no events left."
  },
  {
   "property": "C143",
   "status": "partial",
   "theorems": [
    "Verif.Sim.Threads.C143_legal_partial",
    "Verif.Sim.Threads.C143_one_partial",
    "Verif.Sim.Threads.C143_held_partial",
    "Verif.Sim.Threads.C143_together_fails",
    "Verif.Sim.Threads.C143_exit_fails",
    "Verif.Sim.Threads.C143_store_fails",
    "Verif.Sim.Threads.C143_run_fails",
    "Verif.Sim.Threads.C143_lost_fails",
    "Verif.Sim.Threads.C143_clear_fails"
   ],
   "note": "Proved for histories in which an operation is accepted only while all other threads are outside of the operations, or it is Hold(true) while one other thread executes the simulation. False otherwise: any number of operations start at once, Exiting is left, entry points are called while storing, two run loops, a hold is lost. The accesses to _state and _lastGlobalEventId are taken as atomic; in C++ they are data races."
  },
  {
   "property": "C144",
   "status": "partial",
   "theorems": [
    "Verif.Field.C144_write_partial",
    "Verif.Field.C144_push_partial",
    "Verif.Field.C144_unconverted",
    "Verif.Field.C144_undone_fails",
    "Verif.Field.C144_behind_fails",
    "Verif.Field.C144_connect_fails"
   ],
   "note": "A refused write is not undone (C144_undone_fails, for every network), fields connected after the refusing one are not updated (C144_behind_fails), a refused Connect leaves the connection (C144_connect_fails). Proved: exactly which fields have the new value, for all networks without cycle; strings too long for a field are left to C58."
  },
  {
   "property": "C145",
   "status": "partial",
   "theorems": [
    "Verif.Field.C145_equivalence",
    "Verif.Field.C145_declared",
    "Verif.Field.C145_shape_partial",
    "Verif.Field.C145_refused",
    "Verif.Field.C145_kinds_fails",
    "Verif.Field.C145_anonymous_fails",
    "Verif.Field.C145_connect_fails",
    "Verif.Field.C145_names_fails"
   ],
   "note": "AreEquivalent is an equivalence, and equality of shapes for all fields, with the primitive type of the array type in place of that of the items. For arrays of named types this is PTK_None: arrays of different items are connected (C145_kinds_fails, C145_connect_fails), and the same array published without a type is refused (C145_anonymous_fails)."
  },
  {
   "property": "C146",
   "status": "partial",
   "theorems": [
    "Verif.Python.Gil.C146_serial",
    "Verif.Python.Gil.C146_legal",
    "Verif.Python.Gil.C146_one",
    "Verif.Python.Gil.C146_hold_fails"
   ],
   "note": "Proved: one after the other, legal changes of state (Abort by a hook in the middle of a transition excluded, as in C25), one run loop. False: the run loop keeps the interpreter lock, no other Python thread can hold the simulation, in any history (C146_hold_fails)."
  },
  {
   "property": "C147",
   "status": "partial",
   "theorems": [
    "Verif.Field.Racing.C147_apart_partial",
    "Verif.Field.Racing.C147_alone",
    "Verif.Field.Racing.C147_values_partial",
    "Verif.Field.Racing.C147_connected_fails",
    "Verif.Field.Racing.C147_lost_fails"
   ],
   "note": "Proved: threads that write fields that do not meet are independent, for all interleavings; a write alone does instruction by instruction what C58 says; values are never made up. False: connected fields (C147_connected_fails) and increments (C147_lost_fails), even if accesses were atomic."
  },
  {
   "property": "C148",
   "status": "proved",
   "theorems": [
    "Verif.Field.Guarded.C148_serial",
    "Verif.Field.Guarded.C148_settled",
    "Verif.Field.Guarded.C148_updates",
    "Verif.Field.Guarded.C148_ends",
    "Verif.Field.Guarded.C148_handler_fails"
   ],
   "note": "Proved for entry points that the scheduler executes. It does not extend to the handlers of global events, which the event manager calls without the mutex (C148_handler_fails). The deadlock of the scheduler's mutexes is in C66."
  },
  {
   "property": "C149",
   "status": "partial",
   "theorems": [
    "Verif.Python.Notify.C149_gets_partial",
    "Verif.Python.Notify.C149_refused_partial",
    "Verif.Python.Notify.C149_void",
    "Verif.Python.Notify.C149_field",
    "Verif.Python.Notify.C149_ignored_fails",
    "Verif.Python.Notify.C149_missing_fails",
    "Verif.Python.Notify.C149_nul_fails",
    "Verif.Python.Notify.C149_number"
   ],
   "note": "Proved: every value of the kind arrives; integer and character sinks refuse all else; fields as arguments of integer sinks. False: a sink without argument drops any argument (C149_ignored_fails), a sink of booleans takes a missing argument as false and any number as true (C149_missing_fails), texts are cut at a NUL (C149_nul_fails)."
  },
  {
   "property": "C15",
   "status": "partial",
   "theorems": [
    "Verif.Sched.C15_partial",
    "Verif.Sched.C15_time",
    "Verif.Sched.C15_resume_partial",
    "Verif.Sched.C15_fails"
   ],
   "note": "Events, due times, immediate events and last id round-trip for every state; the Zulu table is neither stored nor restored (C15_fails)."
  },
  {
   "property": "C150",
   "status": "partial",
   "theorems": [
    "Verif.Field.ArrHist.C150_keeps",
    "Verif.Field.ArrHist.C150_values",
    "Verif.Field.ArrHist.C150_linked",
    "Verif.Field.ArrHist.C150_write_partial",
    "Verif.Field.ArrHist.C150_fails",
    "Verif.Field.ArrHist.C150_ends_fails"
   ],
   "note": "Size, kind, elements and connections proved for any history. A write does not reach all or none: an array that refuses stops the push, and Connect leaves arrays of different item kinds connected."
  },
  {
   "property": "C151",
   "status": "partial",
   "theorems": [
    "Verif.Persist.C151_exact_partial",
    "Verif.Persist.C151_sequence_partial",
    "Verif.Persist.C151_again",
    "Verif.Persist.C151_prefix",
    "Verif.Persist.C151_within",
    "Verif.Persist.C151_string_fails",
    "Verif.Persist.C151_fails"
   ],
   "note": "Exactness proved for numbers, strings of one byte characters, arrays, pairs, atomics and vectors nested at will; values accepted are storable for all types. False for sets and maps (duplicates accepted) and for the growth of strings (resized before the data is known to be there). That a byte read into a bool is 0 or 1 is not checked by the code either; the model has bytes only."
  },
  {
   "property": "C152",
   "status": "partial",
   "theorems": [
    "Verif.Python.Ids.C152_text_partial",
    "Verif.Python.Ids.C152_none",
    "Verif.Python.Ids.C152_values",
    "Verif.Python.Ids.C152_data1",
    "Verif.Python.Ids.C152_equal_fails",
    "Verif.Python.Ids.C152_members_fails",
    "Verif.Python.Ids.C152_constant_fails",
    "Verif.Python.Ids.C152_nul_fails",
    "Verif.Python.Ids.C152_copy"
   ],
   "note": "Texts without NUL, independence and Data1 are proved. False of the code: == compares identities, so that GetUuid() == GetUuid() is never true; Data2 and Data3 cannot be read or written; the constants can be written (undefined); what follows a NUL in a text is ignored."
  },
  {
   "property": "C153",
   "status": "partial",
   "theorems": [
    "Verif.Raise.C153_same",
    "Verif.Raise.C153_tells",
    "Verif.Raise.C153_push_tells",
    "Verif.Raise.C153_first_partial",
    "Verif.Raise.C153_sender_fails"
   ],
   "note": "What an exception says is true for every network; the sender is the first field that refuses for acyclic connections and values that fit. False of values that cannot be converted: InvalidAnyType has no sender and no value (C153_sender_fails)."
  },
  {
   "property": "C154",
   "status": "partial",
   "theorems": [
    "Verif.Python.Except.C154_catch_partial",
    "Verif.Python.Except.C154_raised_partial",
    "Verif.Python.Except.C154_other",
    "Verif.Python.Except.C154_text_fails",
    "Verif.Python.Except.C154_named_fails",
    "Verif.Python.Except.C154_two_fails"
   ],
   "note": "Proved for exceptions of at most one class below ::Smp::Exception whose text is UTF-8, and for all 46 classes of the library. False otherwise: a text that is not UTF-8 arrives as UnicodeDecodeError (C154_text_fails), exceptions told apart by name only arrive as plain Exception (C154_named_fails), an exception of two classes is caught by the last one registered only (C154_two_fails)."
  },
  {
   "property": "C155",
   "status": "partial",
   "theorems": [
    "Verif.Field.Flags.C155_logic",
    "Verif.Field.Flags.C155_number",
    "Verif.Field.Flags.C155_or",
    "Verif.Field.Flags.C155_mask_fails",
    "Verif.Field.Flags.C155_decrement_fails",
    "Verif.Field.Flags.C155_shift",
    "Verif.Field.Flags.C155_char",
    "Verif.Field.Flags.C155_codes",
    "Verif.Field.Flags.C155_step",
    "Verif.Field.Flags.C155_high_fails",
    "Verif.Field.Flags.C155_low_partial",
    "Verif.Field.Flags.C155_assign",
    "Verif.Field.Flags.C155_float",
    "Verif.Field.Flags.C155_nan_fails",
    "Verif.Field.Flags.C155_char_float_partial",
    "Verif.Field.Flags.C155_char_nan_fails",
    "Verif.Field.Flags.C155_char_undefined_fails",
    "Verif.Field.Flags.C155_assign_float"
   ],
   "note": "Logical operations, numbers, shifts and codes are proved for all operands. False: -- of a false field, &= and ^= with numbers (C155_decrement_fails, C155_mask_fails), >>= and /= of characters from 128 on (C155_high_fails). With floating point operands: a flag becomes true exactly when the exact result is not 0 (C155_float), a NaN makes it true (C155_nan_fails); characters when the exact result is a number of the type (C155_char_float_partial), undefined when no character has it (C155_char_undefined_fails). Missing: results on characters that are rounded first."
  },
  {
   "property": "C156",
   "status": "partial",
   "theorems": [
    "Verif.Tree.C156_exact",
    "Verif.Tree.C156_ends",
    "Verif.Tree.C156_safe",
    "Verif.Tree.C156_erased_fails",
    "Verif.Tree.C156_prefix",
    "Verif.Tree.C156_raise"
   ],
   "note": "Emissions that overlap in any number of threads are exact and end (C156_exact, C156_ends); an exception ends only the emission it leaves, and what was notified is always a prefix (C156_raise, C156_prefix); no dangling iterator without unsubscription of a sink that is being notified (C156_safe). False otherwise, for every history (C156_erased_fails). Steps are atomic in the model: simultaneous changes of the std::set are data races in the code."
  },
  {
   "property": "C157",
   "status": "proved",
   "theorems": [
    "Verif.Sim.Lacking.C157_safe",
    "Verif.Sim.Lacking.C157_exact",
    "Verif.Sim.Lacking.C157_connect_fails",
    "Verif.Sim.Lacking.C157_run_fails"
   ],
   "note": "Exactly the complete sets of services are safe (C157_exact); also which sets cannot be connected or run. Times are left out of the model: calls say where events go in the table."
  },
  {
   "property": "C158",
   "status": "partial",
   "theorems": [
    "Verif.Field.Push.C158_safe",
    "Verif.Field.Push.C158_prefix",
    "Verif.Field.Push.C158_exact",
    "Verif.Field.Push.C158_ends",
    "Verif.Field.Push.C158_null_fails",
    "Verif.Field.Push.C158_skip_fails"
   ],
   "note": "Proved without disconnections in the middle of a push. False with them, in every state and for every input: a null pointer is followed (C158_null_fails) or an input is skipped (C158_skip_fails). Accesses to the vector are atomic in the model; in the code they are data races."
  },
  {
   "property": "C159",
   "status": "partial",
   "theorems": [
    "Verif.Chrono.Integral.C159_exact",
    "Verif.Chrono.Integral.C159_assign",
    "Verif.Chrono.Integral.C159_program",
    "Verif.Chrono.Integral.C159_postfix",
    "Verif.Chrono.Integral.C159_unsigned",
    "Verif.Chrono.Integral.C159_divides",
    "Verif.Chrono.Integral.C159_divide_fails",
    "Verif.Chrono.Integral.C159_remains",
    "Verif.Chrono.Integral.C159_remainder_fails",
    "Verif.Chrono.Integral.C159_reconstructs",
    "Verif.Chrono.Integral.C159_undo",
    "Verif.Chrono.Integral.C159_bits",
    "Verif.Chrono.Integral.C159_left",
    "Verif.Chrono.Integral.C159_right",
    "Verif.Chrono.Integral.C159_shift_fails"
   ],
   "note": "Exact for every integer type but UInt64, with exactly the undefined cases; for UInt64 the operands for which the result is exact are characterised. False as stated for negative durations divided by a UInt64 and for shifts of negative durations (the _fails theorems). Operands of type bool and of enumerations are not modelled."
  },
  {
   "property": "C16",
   "status": "proved",
   "theorems": [
    "Verif.Event.C16_stable",
    "Verif.Event.C16_injective",
    "Verif.Event.C16_predefined",
    "Verif.Event.C16_rejects",
    "Verif.Event.C16_restore",
    "Verif.Event.C16_restore_fails"
   ],
   "note": "For every sequence of calls. Across a restored breakpoint ids are those of the breakpoint, so an id given after it was stored can be given to another name (C16_restore_fails)."
  },
  {
   "property": "C160",
   "status": "partial",
   "theorems": [
    "Verif.Sim.Nested.C160_files_partial",
    "Verif.Sim.Nested.C160_nested",
    "Verif.Sim.Nested.C160_right",
    "Verif.Sim.Nested.C160_older_fails",
    "Verif.Sim.Nested.C160_mixture_fails"
   ],
   "note": "Proved for different files; for the same file the contents are characterised byte by byte, and the claim is false (the _fails theorems). The device has room (C116 has full devices)."
  },
  {
   "property": "C161",
   "status": "partial",
   "theorems": [
    "Verif.Text.Search.C161_search",
    "Verif.Text.Search.C161_part",
    "Verif.Text.Search.C161_read",
    "Verif.Text.Search.C161_write",
    "Verif.Text.Search.C161_back",
    "Verif.Text.Search.C161_full_fails",
    "Verif.Text.Search.C161_stale_fails"
   ],
   "note": "True for all searches, parts, reads and writes below the size; the exact text after any write is C161_write. False for writes on the terminator, which the _fails theorems show."
  },
  {
   "property": "C162",
   "status": "partial",
   "theorems": [
    "Verif.Field.Whole.C162_assign_partial",
    "Verif.Field.Whole.C162_elements_partial",
    "Verif.Field.Whole.C162_roundtrip_partial",
    "Verif.Field.Whole.C162_self_partial",
    "Verif.Field.Whole.C162_connected_fails"
   ],
   "note": "Exact result of the assignment after any history, for connections without cycle and values that fit; equal to the array when no element is forced or connected to another one. Refuted for an element connected to an earlier one."
  },
  {
   "property": "C163",
   "status": "partial",
   "theorems": [
    "Verif.Sched.Average.C163_mean_partial",
    "Verif.Sched.Average.C163_whole",
    "Verif.Sched.Average.C163_lost_fails"
   ],
   "note": "Exact as long as the sums are numbers of type double (C163_whole: whole numbers up to 2^48); refuted beyond. Missing: a bound of the error for other samples."
  },
  {
   "property": "C164",
   "status": "partial",
   "theorems": [
    "Verif.Path.Published.C164_found_partial",
    "Verif.Path.Published.C164_own",
    "Verif.Path.Published.C164_outside",
    "Verif.Path.Published.C164_anonymous_fails",
    "Verif.Path.Published.C164_outside_fails",
    "Verif.Path.Published.C164_reached",
    "Verif.Path.Published.C164_way"
   ],
   "note": "Proved for all fields that are not below an array made by PublishArray and, for the second part, for all paths without '..'; the two exceptions are theorems. The order in which a component lists its fields is the one of the tree."
  },
  {
   "property": "C165",
   "status": "proved",
   "theorems": [
    "Verif.Pub.Lookup.C165_named",
    "Verif.Pub.Lookup.C165_null_fails"
   ],
   "note": "Null pointers are the subject of C165_null_fails."
  },
  {
   "property": "C166",
   "status": "partial",
   "theorems": [
    "Verif.Path.Ancestor.C166_ancestor",
    "Verif.Path.Ancestor.C166_order",
    "Verif.Path.Ancestor.C166_contains_partial",
    "Verif.Path.Ancestor.C166_contains_fails",
    "Verif.Path.Ancestor.C166_nearest"
   ],
   "note": "All proved for all objects; C166_contains_partial says exactly which objects are ancestors, namely all that contain the object apart from arrays made by PublishArray, for which the claim is false (C166_contains_fails)."
  },
  {
   "property": "C17",
   "status": "proved",
   "theorems": [
    "Verif.Event.C17_snapshot",
    "Verif.Event.C17_once",
    "Verif.Event.C17_order"
   ],
   "note": "Re-entrant calls modelled by a stack of emissions."
  },
  {
   "property": "C18",
   "status": "proved",
   "theorems": [
    "Verif.Event.C18_subscribe",
    "Verif.Event.C18_unsubscribe",
    "Verif.Event.C18_no_effect"
   ],
   "note": ""
  },
  {
   "property": "C19",
   "status": "partial",
   "theorems": [
    "Verif.Event.C19_unique",
    "Verif.Event.C19_usable_partial",
    "Verif.Event.C19_fails"
   ],
   "note": "Uniqueness holds in every interleaving; the id is not usable between the two critical sections of its creator."
  },
  {
   "property": "C20",
   "status": "proved",
   "theorems": [
    "Verif.Sched.C20_epoch",
    "Verif.Sched.C20_mission",
    "Verif.Sched.C20_mission_start",
    "Verif.Sched.C20_read"
   ],
   "note": "Time keeper arithmetic for every reachable state"
  },
  {
   "property": "C21",
   "status": "partial",
   "theorems": [
    "Verif.Sched.C21_calls",
    "Verif.Sched.C21_loop",
    "Verif.Sched.C21_window_partial",
    "Verif.Sched.C21_fails"
   ],
   "note": "SetSimulationTime window; a hold inside the window leaves it open, shown by C21_fails"
  },
  {
   "property": "C22",
   "status": "partial",
   "theorems": [
    "Verif.Link.C22_count_partial",
    "Verif.Link.C22_remove_partial",
    "Verif.Link.C22_wrap_fails",
    "Verif.Link.C22_modular"
   ],
   "note": "Exact for histories with fewer than 2^32 additions of one link; modulo 2^32 for every history (C22_modular)"
  },
  {
   "property": "C23",
   "status": "partial",
   "theorems": [
    "Verif.Link.C23_sources_partial",
    "Verif.Link.C23_fails"
   ],
   "note": "Distinct component names; sources with the same name break it"
  },
  {
   "property": "C24",
   "status": "partial",
   "theorems": [
    "Verif.Link.C24_canRemove_partial",
    "Verif.Link.C24_removeLinks_partial",
    "Verif.Link.C24_fails",
    "Verif.Link.C24_count_fails"
   ],
   "note": "Sources that call RemoveLink while asked are skipped"
  },
  {
   "property": "C25",
   "status": "partial",
   "theorems": [
    "Verif.Sim.C25_partial",
    "Verif.Sim.C25_any_partial",
    "Verif.Sim.C25_wrong_state",
    "Verif.Sim.C26_fails_init"
   ],
   "note": "All histories with nested calls to any depth; wrong-state calls have no effect. Missing: Abort called in the middle of a transition (C26_fails)."
  },
  {
   "property": "C26",
   "status": "partial",
   "theorems": [
    "Verif.Sim.C26_partial",
    "Verif.Sim.C26_idle",
    "Verif.Sim.C26_fails",
    "Verif.Sim.C26_fails_init"
   ],
   "note": "False of the code: Abort during a transition (by a subscriber or an initialisation entry point) is undone by the transition."
  },
  {
   "property": "C27",
   "status": "partial",
   "theorems": [
    "Verif.Sim.C27_partial",
    "Verif.Sim.C27_fails"
   ],
   "note": "All histories without Abort. False: Reconnecting is left without event, EnterAborting is emitted before the change."
  },
  {
   "property": "C28",
   "status": "proved",
   "theorems": [
    "Verif.Sim.C28",
    "Verif.Sim.C28_raise",
    "Verif.Sim.C28_parents_first",
    "Verif.Sim.C28_once",
    "Verif.Sim.C28_others",
    "Verif.Sim.C28_visits"
   ],
   "note": "All trees, with components created by hooks on the way; hooks that raise. Hooks that change containers of other components are in C104."
  },
  {
   "property": "C29",
   "status": "partial",
   "theorems": [
    "Verif.Sim.C29_once",
    "Verif.Sim.C29_next",
    "Verif.Sim.C29_order_partial",
    "Verif.Sim.C29_rejected",
    "Verif.Sim.C29_fails",
    "Verif.Sim.C29_stuck"
   ],
   "note": "Proved for histories without exceptions; an exception loses the entry points behind it."
  },
  {
   "property": "C30",
   "status": "partial",
   "theorems": [
    "Verif.Sim.Bp.C30_partial",
    "Verif.Sim.Bp.C30_fails",
    "Verif.Sim.Bp.C30_refused",
    "Verif.Sim.Bp.C30_parts",
    "Verif.Sim.Bp.C30_fields"
   ],
   "note": "False of the code: nothing inside containers is stored or restored."
  },
  {
   "property": "C31",
   "status": "partial",
   "theorems": [
    "Verif.Tree.C31_partial",
    "Verif.Tree.C31_linear",
    "Verif.Tree.C31_hooks_partial",
    "Verif.Tree.C31_fails_configure",
    "Verif.Tree.C31_fails_disconnect",
    "Verif.Tree.C31_owns"
   ],
   "note": "Linear order proved for all call sequences. False of the code: DoConfigure is executed twice (ComponentHelper.h:53,58), Disconnect runs the hook before checking the state. Hooks are atomic here; hooks that call the operations of their own component are in C105."
  },
  {
   "property": "C32",
   "status": "partial",
   "theorems": [
    "Verif.Tree.C32_bounds",
    "Verif.Tree.C32_delete",
    "Verif.Tree.C32_delete_error",
    "Verif.Tree.C32_add_partial",
    "Verif.Tree.C32_error_unchanged",
    "Verif.Tree.C32_fails",
    "Verif.Tree.C32_published_fails"
   ],
   "note": "Bounds, parents, types, exact exceptions and no-change proved. False for a published composite: every AddComponent raises InvalidFieldName or DuplicateName (Container.cpp:110 + Publication.cpp:227)."
  },
  {
   "property": "C33",
   "status": "proved",
   "theorems": [
    "Verif.Tree.C33_unique",
    "Verif.Tree.C33_lookup",
    "Verif.Tree.C33_once",
    "Verif.Tree.C33_index",
    "Verif.Tree.C33_index_add"
   ],
   "note": "For containers registered with their composite (Container constructed with a Composite parent)."
  },
  {
   "property": "C34",
   "status": "proved",
   "theorems": [
    "Verif.Tree.C34_bounds",
    "Verif.Tree.C34_add",
    "Verif.Tree.C34_remove",
    "Verif.Tree.C34_removeLinks",
    "Verif.Tree.C34_lookup"
   ],
   "note": "A negative lower bound converts to a huge size_t, so nothing can be removed: covered by toSize in the exact conditions."
  },
  {
   "property": "C35",
   "status": "proved",
   "theorems": [
    "Verif.Tree.C35_at_name",
    "Verif.Tree.C35_order",
    "Verif.Tree.C35_at_index",
    "Verif.Tree.C35_add",
    "Verif.Tree.C35_remove",
    "Verif.Tree.C35_delegate"
   ],
   "note": "Owning, non-owning and delegating collections."
  },
  {
   "property": "C36",
   "status": "partial",
   "theorems": [
    "Verif.Tree.C36_partial",
    "Verif.Tree.C36_uniform_partial",
    "Verif.Tree.C36_error_unchanged",
    "Verif.Tree.C36_fails"
   ],
   "note": "False: PublishField(IField*) then PublishField(name, address) of the same name is accepted."
  },
  {
   "property": "C37",
   "status": "partial",
   "theorems": [
    "Verif.Tree.C37_emit_partial",
    "Verif.Tree.C37_plain",
    "Verif.Tree.C37_subscribe",
    "Verif.Tree.C37_set",
    "Verif.Tree.C37_fails"
   ],
   "note": "Exactly-once proved for every history, including subscriptions, unsubscriptions and nested emissions during the emission. False (undefined behaviour) when a sink unsubscribes itself while notified."
  },
  {
   "property": "C38",
   "status": "proved",
   "theorems": [
    "Verif.Tree.C38_uuid",
    "Verif.Tree.C38_all",
    "Verif.Tree.C38_name"
   ],
   "note": "Factories identified by address; CreateInstance modelled as the factory chosen and the name passed."
  },
  {
   "property": "C39",
   "status": "partial",
   "theorems": [
    "Verif.Path.C39_roundTrip_partial",
    "Verif.Path.C39_injective_partial",
    "Verif.Path.C39_null_partial",
    "Verif.Path.C39_container_fails",
    "Verif.Path.C39_anonymous_fails",
    "Verif.Path.C39_null_fails",
    "Verif.Path.C39_way_partial",
    "Verif.Path.C39_parent"
   ],
   "note": "Round trip and injectivity for all trees and all objects that are not containers, references, operation parameters or below an anonymous array; for those the paths do not resolve (fails theorems). Null for all paths that name nothing, with '..' and failures, but for the one segment that is dropped at a field known as an object only (after a failure's name, at the start, after '..'); exact without '..' and failures."
  },
  {
   "property": "C40",
   "status": "partial",
   "theorems": [
    "Verif.Path.C40_slashes",
    "Verif.Path.C40_dot",
    "Verif.Path.C40_dot_last",
    "Verif.Path.C40_dot_first",
    "Verif.Path.C40_dotdot",
    "Verif.Path.C40_dotdot_first",
    "Verif.Path.C40_absolute",
    "Verif.Path.C40_fails",
    "Verif.Path.C40_index",
    "Verif.Path.C40_parent"
   ],
   "note": "All normalisations hold for all strings; '..' goes to the parent and the rest is resolved from there. Not full: when '..' leads to an enclosing field the next segment is dropped (C40_fails)."
  },
  {
   "property": "C41",
   "status": "proved",
   "theorems": [
    "Verif.Path.C41_checkName"
   ],
   "note": "All strings and null; character classes of the C locale."
  },
  {
   "property": "C42",
   "status": "proved",
   "theorems": [
    "Verif.Persist.C42_roundTrip",
    "Verif.Persist.C42_sequence"
   ],
   "note": "By induction on the type, for byte strings; wide strings are C44. Unordered containers: any iteration order."
  },
  {
   "property": "C43",
   "status": "proved",
   "theorems": [
    "Verif.Persist.C43_mismatch",
    "Verif.Persist.C43_match",
    "Verif.Persist.C43_sequence"
   ],
   "note": "For types with different hashes; hash collisions of typeid are outside."
  },
  {
   "property": "C44",
   "status": "partial",
   "theorems": [
    "Verif.Persist.C44_partial",
    "Verif.Persist.C44_exact",
    "Verif.Persist.C44_fails"
   ],
   "note": "False of the code: only size() bytes of the data are stored. C44_fails shows it for every character width above one; C44_partial says what holds."
  },
  {
   "property": "C45",
   "status": "partial",
   "theorems": [
    "Verif.Text.C45_capacity_partial",
    "Verif.Text.C45_construct",
    "Verif.Text.C45_prefix",
    "Verif.Text.C45_fails",
    "Verif.Text.C45_overlap_fails"
   ],
   "note": "every operation sequence, including parts of the string itself as arguments, except that remove_prefix with more than size() is undefined (C45_fails), and so is the assignment of an overlapping part of the string itself (C45_overlap_fails)"
  },
  {
   "property": "C46",
   "status": "proved",
   "theorems": [
    "Verif.Text.C46_copyString",
    "Verif.Text.C46_tight"
   ],
   "note": "destination with size+1 bytes, as every caller provides; C46_tight shows size bytes would not do"
  },
  {
   "property": "C47",
   "status": "partial",
   "theorems": [
    "Verif.Chrono.C47_exact",
    "Verif.Chrono.C47_algebra",
    "Verif.Chrono.C47_divMod",
    "Verif.Chrono.C47_units",
    "Verif.Chrono.C47_offset",
    "Verif.Chrono.C47_timePoint",
    "Verif.Chrono.C47_coarse",
    "Verif.Chrono.C47_fails"
   ],
   "note": "all 64-bit values; the conversion of a date-time above 2^63-1-offset to a time point overflows (C47_fails)"
  },
  {
   "property": "C48",
   "status": "proved",
   "theorems": [
    "Verif.Uuid.C48_parse_print",
    "Verif.Uuid.C48_print_parse",
    "Verif.Uuid.C48_rejected"
   ],
   "note": "all 2^128 UUIDs and all strings"
  },
  {
   "property": "C49",
   "status": "proved",
   "theorems": [
    "Verif.Uuid.C49_equality",
    "Verif.Uuid.C49_irreflexive",
    "Verif.Uuid.C49_transitive",
    "Verif.Uuid.C49_total",
    "Verif.Uuid.C49_hash",
    "Verif.Uuid.C49_value"
   ],
   "note": "bytes compared in order; the hash is a function of the bytes"
  },
  {
   "property": "C50",
   "status": "proved",
   "theorems": [
    "Verif.Any.C50_set",
    "Verif.Any.C50_get",
    "Verif.Any.C50_other",
    "Verif.Any.C50_init",
    "Verif.Any.C50_bool"
   ],
   "note": "all integer types and kinds, both directions; exception exactly when out of range"
  },
  {
   "property": "C51",
   "status": "partial",
   "theorems": [
    "Verif.Any.C51_exact_partial",
    "Verif.Any.C51_equivalence_partial",
    "Verif.Any.C51_copy_partial",
    "Verif.Any.C51_fails",
    "Verif.Any.C51_move_partial",
    "Verif.Any.C51_float_partial",
    "Verif.Any.C51_selfmove_fails"
   ],
   "note": "equivalence proved for integers, characters and strings; None, Bool, floating point break symmetry, reflexivity and transitivity (C51_fails)"
  },
  {
   "property": "C52",
   "status": "partial",
   "theorems": [
    "Verif.Any.C52_partial",
    "Verif.Any.C52_kind",
    "Verif.Any.C52_fails"
   ],
   "note": "a string is released before the check and lost (C52_fails)"
  },
  {
   "property": "C53",
   "status": "partial",
   "theorems": [
    "Verif.Pub.C53_unique",
    "Verif.Pub.C53_stable",
    "Verif.Pub.C53_failed",
    "Verif.Pub.C53_added",
    "Verif.Pub.C53_refused",
    "Verif.Pub.C53_primitive",
    "Verif.Pub.C53_refs_partial",
    "Verif.Pub.C53_literals",
    "Verif.Pub.C53_fails",
    "Verif.Pub.C53_expand_partial",
    "Verif.Pub.C53_expand_fails"
   ],
   "note": "Uniqueness, stability and no effect of failed calls hold for every history. Arrays, enumerations and class bases refer to registered types; field types of structures are not checked by the code (C53_fails, C53_expand_fails give an unregistered and a self-containing structure), so closure and following of references are proved when fields name earlier types."
  },
  {
   "property": "C54",
   "status": "proved",
   "theorems": [
    "Verif.Pub.C54",
    "Verif.Pub.C54_names",
    "Verif.Pub.C54_index",
    "Verif.Pub.C54_set",
    "Verif.Pub.C54_return",
    "Verif.Pub.C54_defined"
   ],
   "note": "C54: requests created by a published operation, no side condition. C54_names: nested arrays/structures flatten to distinct names. The other theorems are on requests with distinct names."
  },
  {
   "property": "C55",
   "status": "partial",
   "theorems": [
    "Verif.Pub.C55_check_partial",
    "Verif.Pub.C55_partial",
    "Verif.Pub.C55_return_partial",
    "Verif.Pub.C55_fails"
   ],
   "note": "Proved for types with non-negative string length and for values other than NaN; C55_fails shows that NaN is accepted by every float range and that a negative string length accepts everything."
  },
  {
   "property": "C56",
   "status": "proved",
   "theorems": [
    "Verif.Pub.C56_invoke",
    "Verif.Pub.C56_request",
    "Verif.Pub.C56_create",
    "Verif.Pub.C56_creatable",
    "Verif.Pub.C56_getValue",
    "Verif.Pub.C56_setValue",
    "Verif.Pub.C56_signature",
    "Verif.Pub.C56_getValue_ok"
   ],
   "note": "For any IRequest, and more precisely for the requests the operation creates."
  },
  {
   "property": "C57",
   "status": "partial",
   "theorems": [
    "Verif.Field.C57_forced",
    "Verif.Field.C57_force",
    "Verif.Field.C57_unforce",
    "Verif.Field.C57_fails"
   ],
   "note": "Proved: between Force/Freeze and Unforce no history of assignments, pushes, connections and SetValue changes the value; Force that returns sets the value (no cyclic data flow). Missing: a failing Force leaves the field unforced (C57_fails shows it)."
  },
  {
   "property": "C58",
   "status": "partial",
   "theorems": [
    "Verif.Field.C58_wired",
    "Verif.Field.C58_write_partial",
    "Verif.Field.C58_write_plain",
    "Verif.Field.C58_push_partial",
    "Verif.Field.C58_connect_partial",
    "Verif.Field.C58_connect_fails_partial",
    "Verif.Field.C58_array_partial",
    "Verif.Field.C58_tree_refused",
    "Verif.Field.C58_tree_partial",
    "Verif.Field.C58_tree_disconnect",
    "Verif.Field.C58_connect_fails",
    "Verif.Field.C58_string_fails",
    "Verif.Field.C58_cycle",
    "Verif.Field.C58_array_fails",
    "Verif.Field.C58_array_set_fails",
    "Verif.Field.C58_tree_fails",
    "Verif.Field.C58_array_connect_partial",
    "Verif.Field.C58_ends",
    "Verif.Field.C58_tree_cycle",
    "Verif.Field.C58_self",
    "Verif.Field.C58_array_push_partial"
   ],
   "note": "Proved for simple fields on acyclic graphs when the value fits the fields reached, for element writes of arrays of simple items, and leaf by leaf for structures. False in the code (negations proved): Connect that raises while pushing stays connected, strings are cut, arrays of different item kinds are equivalent, SetValue on an array does not push, a cycle recurses forever."
  },
  {
   "property": "C59",
   "status": "partial",
   "theorems": [
    "Verif.Field.C59_index",
    "Verif.Field.C59_length",
    "Verif.Field.C59_set",
    "Verif.Field.C59_set_get",
    "Verif.Field.C59_setAll",
    "Verif.Field.C59_setAll_get",
    "Verif.Field.C59_setAll_partial",
    "Verif.Field.C59_fails",
    "Verif.Field.C59_string8_fails"
   ],
   "note": "Proved except atomicity of SetValues: a refused element leaves the preceding ones replaced (C59_setAll_partial says exactly what changes, C59_fails is the witness)."
  },
  {
   "property": "C60",
   "status": "partial",
   "theorems": [
    "Verif.Field.C60_simple_partial",
    "Verif.Field.C60_refused_partial",
    "Verif.Field.C60_fails",
    "Verif.Field.C60_array_fails",
    "Verif.Field.C60_size_fails"
   ],
   "note": "Proved for published simple fields of enumerations of four bytes; false for enumerations of another size, for published arrays and for fields not published through the publication (negations proved)."
  },
  {
   "property": "C61",
   "status": "proved",
   "theorems": [
    "Verif.Log.Queue.C61_order",
    "Verif.Log.Queue.C61_delivered",
    "Verif.Log.Queue.C61_all",
    "Verif.Log.Queue.C61_bounded",
    "Verif.Log.Queue.C61_progress",
    "Verif.Log.Queue.C61_no_lost_wakeup"
   ],
   "note": "Every interleaving of any number of logging threads, the worker and the destructor: entries reach the appenders in acceptance order, without loss or repetition, and when the destructor returns all accepted entries have been delivered. Mutex and condition variable are modelled by their contracts."
  },
  {
   "property": "C62",
   "status": "proved",
   "theorems": [
    "Verif.Log.Kinds.C62_distinct",
    "Verif.Log.Kinds.C62_answered",
    "Verif.Log.Kinds.C62_predefined",
    "Verif.Log.Kinds.C62_name",
    "Verif.Log.Kinds.C62_unknown",
    "Verif.Log.Kinds.C62_restore_partial",
    "Verif.Log.Kinds.C62_restore_fails",
    "Verif.Log.Kinds.C62_wraps"
   ],
   "note": "Proved for every history of queries up to 2^32 different names (the kind is 32 bits wide; C62_wraps shows the bound is exact). Beyond the stated property: kinds queried after a store change meaning after a restore (C62_restore_fails)."
  },
  {
   "property": "C63",
   "status": "partial",
   "theorems": [
    "Verif.Log.C63_unescape",
    "Verif.Log.C63_unescape_total",
    "Verif.Log.C63_unescape_escape",
    "Verif.Log.C63_trim",
    "Verif.Log.C63_trim_idem",
    "Verif.Log.C63_split",
    "Verif.Log.C63_split_total",
    "Verif.Log.C63_pattern",
    "Verif.Log.C63_pattern_partial",
    "Verif.Log.C63_pattern_fails",
    "Verif.Log.C63_default",
    "Verif.Log.C63_configured",
    "Verif.Log.C63_space"
   ],
   "note": "unescape, trim and split: proved for every string. Pattern parsing is false for a pattern ending in a lone % or with an unclosed brace: the code reads past the end of the string (C63_pattern_fails); C63_pattern_partial characterises exactly the patterns it parses safely."
  },
  {
   "property": "C64",
   "status": "proved",
   "theorems": [
    "Verif.Fallible.C64_isFailed",
    "Verif.Fallible.C64_getFailure",
    "Verif.Fallible.C64_collection"
   ],
   "note": "Every history of constructions, Fail, Unfail and restores."
  },
  {
   "property": "C65",
   "status": "partial",
   "theorems": [
    "Verif.Safe.C65_safe_partial",
    "Verif.Safe.C65_emit_partial",
    "Verif.Safe.C65_scheduler_partial",
    "Verif.Safe.C65_returns_partial",
    "Verif.Safe.C65_abort_diverges",
    "Verif.Safe.C65_fails"
   ],
   "note": "False when a subscriber of SMP_EnterAborting raises: Abort then calls itself without end (C65_fails, C65_abort_diverges). Proved when the subscribers of SMP_EnterAborting do not raise."
  },
  {
   "property": "C66",
   "status": "partial",
   "theorems": [
    "Verif.Sched.Locks.C66_exclusive",
    "Verif.Sched.Locks.C66_progress_partial",
    "Verif.Sched.Locks.C66_alone_partial",
    "Verif.Sched.Locks.C66_fails"
   ],
   "note": "Exact characterisation of the reachable deadlock of _eventsMutex and _execMutex"
  },
  {
   "property": "C67",
   "status": "partial",
   "theorems": [
    "Verif.Sched.Post.C67_rejected",
    "Verif.Sched.Post.C67_fires_partial",
    "Verif.Sched.Post.C67_stale_fails",
    "Verif.Sched.Post.C67_lost_fails",
    "Verif.Sched.Post.C67_stop_fails"
   ],
   "note": "Refinement of the atomic machine when insertions are timely; three interleavings that break the claim"
  },
  {
   "property": "C68",
   "status": "proved",
   "theorems": [
    "Verif.Text.C68_compare"
   ],
   "note": ""
  },
  {
   "property": "C69",
   "status": "partial",
   "theorems": [
    "Verif.Any.C69_set_partial",
    "Verif.Any.C69_fails",
    "Verif.Any.C69_get_partial",
    "Verif.Any.C69_get_fails"
   ],
   "note": "upper half of the positive range excluded: rounding up to the bound makes the check itself undefined (C69_fails)"
  },
  {
   "property": "C70",
   "status": "partial",
   "theorems": [
    "Verif.Any.Own.C70_ownership_partial",
    "Verif.Any.Own.C70_noLeak_partial",
    "Verif.Any.Own.C70_fails"
   ],
   "note": "all histories except passing an AnySimple its own string, which is read after deletion (C70_fails)"
  },
  {
   "property": "C71",
   "status": "proved",
   "theorems": [
    "Verif.Persist.C71_truncated",
    "Verif.Persist.C71_unchanged",
    "Verif.Persist.C71_sequence",
    "Verif.Persist.C71_vector"
   ],
   "note": "Any type, value and cut."
  },
  {
   "property": "C72",
   "status": "partial",
   "theorems": [
    "Verif.Sim.C72_partial",
    "Verif.Sim.C72_fails"
   ],
   "note": "False for the root itself, which gets no call."
  },
  {
   "property": "C73",
   "status": "proved",
   "theorems": [
    "Verif.Field.Saved.C73_roundTrip",
    "Verif.Field.Saved.C73_roundTrip_all",
    "Verif.Field.Saved.C73_exact",
    "Verif.Field.Saved.C73_truncated"
   ],
   "note": "Field trees of any structure."
  },
  {
   "property": "C74",
   "status": "proved",
   "theorems": [
    "Verif.Sched.C74_result",
    "Verif.Sched.C74_added",
    "Verif.Sched.C74_changed"
   ],
   "note": "Every result of every scheduling call in every state, provided the values computed fit in 64 bits; effects of accepted calls."
  },
  {
   "property": "C75",
   "status": "partial",
   "theorems": [
    "Verif.Sched.C75_time_partial",
    "Verif.Sched.C75_executed_partial",
    "Verif.Sched.C10_livelock_fails"
   ],
   "note": "Loops over states reached without the calls excluded by Op.ok; a zero cycle makes the claim false (C10_livelock_fails)."
  },
  {
   "property": "C76",
   "status": "proved",
   "theorems": [
    "Verif.Pub.Marshal.C76_inject",
    "Verif.Pub.Marshal.C76_extract",
    "Verif.Pub.Marshal.C76_roundtrip",
    "Verif.Pub.Marshal.C76_operation",
    "Verif.Pub.Marshal.C76_simple"
   ],
   "note": "For operations whose parameters and structure fields have different valid names."
  },
  {
   "property": "C77",
   "status": "partial",
   "theorems": [
    "Verif.CString.C77_partial",
    "Verif.CString.C77_no_leak",
    "Verif.CString.C77_fails"
   ],
   "note": "Copying from a moved-from cstring, and assigning a cstring its own c_str(), are undefined behaviour (C77_fails: every such program); all other programs are proved."
  },
  {
   "property": "C78",
   "status": "partial",
   "theorems": [
    "Verif.Sched.Zulu.C78_fires_partial",
    "Verif.Sched.Zulu.C78_due_partial",
    "Verif.Sched.Zulu.C78_state",
    "Verif.Sched.Zulu.C78_order_partial",
    "Verif.Sched.Zulu.C78_early_fails"
   ],
   "note": "False of the code when an event already taken out of the table is moved (C78_early_fails: it is called before its new time). Proved for all histories where an event is only moved while it waits in the table, only removed while it waits or runs, and a repeating event keeps a positive period; C78_due also asks that no event is posted earlier than the time the thread waits for (see C79), C78_order that the posted time does not pass during the call."
  },
  {
   "property": "C79",
   "status": "partial",
   "theorems": [
    "Verif.Sched.Zulu.C79_partial",
    "Verif.Sched.Zulu.C79_progress_partial",
    "Verif.Sched.Zulu.C79_fails",
    "Verif.Sched.Zulu.C79_periods_partial",
    "Verif.Sched.Zulu.C79_period_fails"
   ],
   "note": "False of the code: wait_for keeps its time limit after a notification, so an event posted for an earlier time is executed late (C79_fails). Proved when no event is posted, while the thread waits, earlier than the time it waits for; progress is proved for every state in which the thread does not sleep (overflow of a time excepted). A repeated event keeps a positive period (C79_periods_partial), but not one repeated for ever: with its period set to 0 the thread never comes to rest (C79_period_fails)."
  },
  {
   "property": "C80",
   "status": "partial",
   "theorems": [
    "Verif.Sched.Zulu.C80_partial",
    "Verif.Sched.Zulu.C80_fails_remove",
    "Verif.Sched.Zulu.C80_fails_move",
    "Verif.Sched.Zulu.C80_fails_self"
   ],
   "note": "False of the code: removing an event due at the same time, or moving the running event, ends the program or is undefined behaviour. Proved for all histories without these calls, overflow of a number excepted."
  },
  {
   "property": "C81",
   "status": "proved",
   "theorems": [
    "Verif.Sched.Zulu.C81_ends"
   ],
   "note": "The join of the thread by itself (DoDisconnect called from a Zulu entry point) is in C114."
  },
  {
   "property": "C82",
   "status": "partial",
   "theorems": [
    "Verif.Any.C82_partial",
    "Verif.Float.C82_nearest_partial",
    "Verif.Float.C82_rounding",
    "Verif.Float.C82_unchanged",
    "Verif.Float.C82_large",
    "Verif.Any.C82_widen",
    "Verif.Any.C82_fails",
    "Verif.Float.C82_lost"
   ],
   "note": "accepted exactly when the nearest float is within 2^-52 of the double (rounding of binary64 to binary32 modelled and characterised); that tolerance is absolute, so doubles below 2 in magnitude can lose digits or become 0 (C82_lost); from 2 on nothing is lost (C82_large)"
  },
  {
   "property": "C83",
   "status": "proved",
   "theorems": [
    "Verif.Mem.C83_addresses",
    "Verif.Mem.C83_inside",
    "Verif.Mem.C83_disjoint",
    "Verif.Mem.C83_published"
   ],
   "note": "The registered sizes and offsets are assumed right (Sized) for C83_inside and C83_disjoint; they come from sizeof and offsetof in generated code. Fields of the base class of a class type are not published by this code."
  },
  {
   "property": "C84",
   "status": "partial",
   "theorems": [
    "Verif.Mem.C84_ends_partial",
    "Verif.Mem.C84_fails"
   ],
   "note": "False of the code for structures that contain themselves (C84_fails); proved for all registries without such structures."
  },
  {
   "property": "C85",
   "status": "proved",
   "theorems": [
    "Verif.Mem.C85_read",
    "Verif.Mem.C85_exact",
    "Verif.Mem.C85_others",
    "Verif.Mem.C85_raised",
    "Verif.Mem.C85_literals",
    "Verif.Mem.C85_length_fails"
   ],
   "note": "String lengths are assumed not negative where needed; AddStringType accepts negative ones, and then every SetValue is undefined (C85_length_fails)."
  },
  {
   "property": "C86",
   "status": "proved",
   "theorems": [
    "Verif.Mem.C86_restored"
   ],
   "note": "String lengths and sizes assumed right."
  },
  {
   "property": "C87",
   "status": "partial",
   "theorems": [
    "Verif.Field.C87_start",
    "Verif.Field.C87_connect",
    "Verif.Field.C87_kept",
    "Verif.Field.C87_fields_partial",
    "Verif.Field.C87_inputs_partial",
    "Verif.Field.C87_half_partial",
    "Verif.Field.C87_fails",
    "Verif.Field.C87_items_fails",
    "Verif.Field.C87_published_fails"
   ],
   "note": "Proved: only connections into the target are removed; all of them when no field has two successive ones into the target; at least half of them always. False in general: the second of two successive connections is skipped, items of a dataflow array or structure connected on their own and published outputs are never looked at."
  },
  {
   "property": "C88",
   "status": "partial",
   "theorems": [
    "Verif.Field.C88_refused",
    "Verif.Field.C88_connect_partial",
    "Verif.Field.C88_push_partial",
    "Verif.Field.C88_fails",
    "Verif.Field.C88_push_fails",
    "Verif.Field.C88_connect_through_partial",
    "Verif.Field.C88_push_through_partial",
    "Verif.Field.C88_cycle"
   ],
   "note": "Proved, also for forced leaves (which keep their value) and for inputs that push further without cycles, when no field is written twice, no source is written and all fields reached accept the value. False when a leaf refuses its value: the target stays connected and part of it is written."
  },
  {
   "property": "C89",
   "status": "partial",
   "theorems": [
    "Verif.Sim.Library.C89_partial",
    "Verif.Sim.Library.C89_destroy_partial",
    "Verif.Sim.Library.C89_returns",
    "Verif.Sim.Library.C89_refused",
    "Verif.Sim.Library.C89_fails",
    "Verif.Sim.Library.C89_raise_fails",
    "Verif.Sim.Library.C89_exit_fails"
   ],
   "note": "Proved for libraries whose Finalise loads no library and does not raise. False otherwise: the library loaded is removed without Finalise and the other one is finalised again without end, or the name is read through a dangling reference (C89_fails); a Finalise that raises ends the program, and exactly which libraries were finalised is proved (C89_raise_fails); an exception in the Exit made by the destructor ends it before any (C89_exit_fails)."
  },
  {
   "property": "C90",
   "status": "partial",
   "theorems": [
    "Verif.Sim.Service.C90_first",
    "Verif.Sim.Service.C90_accepts",
    "Verif.Sim.Service.C90_partial",
    "Verif.Sim.Service.C90_fails"
   ],
   "note": "First-added and acceptance proved for all calls; lookup by name and existence of the standard services proved when no component is deleted. False after DeleteComponent: the pointer is not reset (C90_fails)."
  },
  {
   "property": "C91",
   "status": "partial",
   "theorems": [
    "Verif.Any.Print.C91_read_partial",
    "Verif.Any.Print.C91_distinct_partial",
    "Verif.Any.Print.C91_char_partial",
    "Verif.Any.Print.C91_string",
    "Verif.Any.Print.C91_stream",
    "Verif.Any.Print.C91_enum",
    "Verif.Any.Print.C91_names",
    "Verif.Any.Print.C91_kinds_fails",
    "Verif.Any.Print.C91_char_fails",
    "Verif.Any.Print.C91_hex_fails",
    "Verif.Any.Print.C91_bases",
    "Verif.Any.Print.C91_unknown"
   ],
   "note": "Proved for None, Char8, Bool and integers on a stream in base ten, strings among themselves, and the seven enumerations. False: durations, dates and strings share texts (C91_kinds_fails); a negative Char8 is no character literal (C91_char_fails); a stream in base sixteen (C91_hex_fails). Texts of floating point numbers and times are parameters."
  },
  {
   "property": "C92",
   "status": "partial",
   "theorems": [
    "Verif.Gen.C92_published",
    "Verif.Gen.C92_get",
    "Verif.Gen.C92_set",
    "Verif.Gen.C92_partial",
    "Verif.Gen.C92_history",
    "Verif.Gen.C92_invoke",
    "Verif.Gen.C92_fails"
   ],
   "note": "Publication, reading, writing, histories over several components and direct requests for every chain of generated classes. Partial: a null string is accepted and read back as the empty string (C92_fails)."
  },
  {
   "property": "C93",
   "status": "partial",
   "theorems": [
    "Verif.Conc.C93_linear",
    "Verif.Conc.C93_alone",
    "Verif.Conc.C93_snapshot",
    "Verif.Conc.C93_locks",
    "Verif.Conc.C93_live_partial",
    "Verif.Conc.C93_deadlock_fails",
    "Verif.Conc.C93_restore_fails",
    "Verif.Conc.C93_back_fails",
    "Verif.Conc.C93_time_partial"
   ],
   "note": "Linearizability of the single expressions is proved for every interleaving and order of evaluation. Absence of deadlock holds from left to right without Store and Restore and fails otherwise. SetSimulationTime checks and assigns in two steps, so that two threads can make the time go back."
  },
  {
   "property": "C94",
   "status": "partial",
   "theorems": [
    "Verif.Link.C94_counts",
    "Verif.Link.C94_partial",
    "Verif.Link.C94_fails"
   ],
   "note": "Counts and results of RemoveLink are those of the calls one after the other for every interleaving; sources too if no AddLink of a pair is made in the middle of its RemoveLink, and not otherwise."
  },
  {
   "property": "C95",
   "status": "partial",
   "theorems": [
    "Verif.Sched.C95_partial",
    "Verif.Sched.C95_fails",
    "Verif.Sched.C95_entry_fails"
   ],
   "note": "Proved for breakpoints without pending Zulu events and without a change of the simulation time left open; C95_fails shows that a hold during PreSimTimeChange makes the continuations differ, C15_fails that pending Zulu events are lost."
  },
  {
   "property": "C96",
   "status": "proved",
   "theorems": [
    "Verif.Emit.C96_same",
    "Verif.Emit.C96_void",
    "Verif.Emit.C96_number",
    "Verif.Emit.C96_text",
    "Verif.Emit.C96_fails"
   ],
   "note": "C96_fails: only kinds are compared by Subscribe, so a sink of a narrower C++ type can stop an emission; an unterminated character array is read past its end."
  },
  {
   "property": "C97",
   "status": "partial",
   "theorems": [
    "Verif.Sim.C97_executing_partial",
    "Verif.Sim.C97_held_partial",
    "Verif.Sim.C97_stop",
    "Verif.Sim.C97_fails"
   ],
   "note": "One thread, without Abort, without Run in a run loop, without Hold in a subscriber of EnterExecuting that runs before the scheduler's or in one of PostSimTimeChange: calls only in Executing and none between the hold and the next Run. Any threads, any calls: after the hold at most one call per run loop in progress. C97_fails: each excluded call, and a hold from another thread, breaks the full statement."
  },
  {
   "property": "C98",
   "status": "partial",
   "theorems": [
    "Verif.Event.C98_order",
    "Verif.Event.C98_calls",
    "Verif.Event.C98_unsubscribed",
    "Verif.Event.C98_unsubscribed_fails",
    "Verif.Event.C98_ids",
    "Verif.Event.C98_accepted",
    "Verif.Event.C98_known_partial",
    "Verif.Event.C98_known_fails"
   ],
   "note": "Proved for all interleavings: one order of the locked parts, the course of each call, uniqueness of ids, accepted ids were given before. False of the code in two respects: an emission that has copied its subscribers executes an entry point after its Unsubscribe has returned (an emission that copies later does not), and an id is rejected while the first QueryEventId that was given it has not returned (accepted afterwards)."
  },
  {
   "property": "C99",
   "status": "partial",
   "theorems": [
    "Verif.Any.C99_same",
    "Verif.Any.C99_write_partial",
    "Verif.Any.C99_read_partial",
    "Verif.Any.C99_write_fails",
    "Verif.Any.C99_read_fails",
    "Verif.Any.C99_notify_fails"
   ],
   "note": "The two kinds are always the right pair; in the right order when writing a kind that never fits or reading a kind that fits with a value that does not, swapped otherwise (C99_write_fails, C99_read_fails, C99_notify_fails)."
  }
 ]
}