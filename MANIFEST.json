{
 "claims": [
  {
   "property": "C01",
   "status": "proved",
   "theorems": [
    "Verif.Props.Wire.C01_round_trip",
    "Verif.Props.Wire.C01_round_trip_total"
   ],
   "note": "All types incl. recursive ones; instants in the second before the epoch excluded (C05); custom conversions assumed to undo each other."
  },
  {
   "property": "C02",
   "status": "proved",
   "theorems": [
    "Verif.Props.Wire.C02_reader_sound",
    "Verif.Props.Wire.C02_reader_no_panic",
    "Verif.Props.Wire.C02_stack_irrelevant"
   ],
   "note": "Recursion depth is a fuel argument; allocation of with_capacity is not modelled."
  },
  {
   "property": "C03",
   "status": "proved",
   "theorems": [
    "Verif.Props.Wire.C03_strict_prefix_fails",
    "Verif.Props.Wire.C03_suffix_irrelevant"
   ],
   "note": ""
  },
  {
   "property": "C04",
   "status": "proved",
   "theorems": [
    "Verif.Props.Wire.C04_lift_iff_whole_buffer",
    "Verif.Props.Wire.C04_lift_lower",
    "Verif.Props.Wire.C04_junk_rejected"
   ],
   "note": ""
  },
  {
   "property": "C05",
   "status": "partial",
   "theorems": [
    "Verif.Props.Wire.C05_system_time_round_trip_partial",
    "Verif.Props.Wire.C05_system_time_exact",
    "Verif.Props.Wire.C05_system_time_broken",
    "Verif.Props.Wire.C05_system_time_write_panics_iff"
   ],
   "note": "The full property is false for the code: instants strictly between one second before the epoch and the epoch come back mirrored. Exact characterisation and witness proved."
  },
  {
   "property": "C06",
   "status": "proved",
   "theorems": [
    "Verif.Props.Wire.C06_duration_round_trip",
    "Verif.Props.Wire.C06_duration_hostile"
   ],
   "note": ""
  },
  {
   "property": "C07",
   "status": "proved",
   "theorems": [
    "Verif.Props.Wire.C07_bad_bool",
    "Verif.Props.Wire.C07_bad_option",
    "Verif.Props.Wire.C07_bad_variant",
    "Verif.Props.Wire.C07_negative_length",
    "Verif.Props.Wire.C07_error_in_field",
    "Verif.Props.Wire.C07_error_in_element"
   ],
   "note": ""
  },
  {
   "property": "C08",
   "status": "proved",
   "theorems": [
    "Verif.Props.Wire.C08_map_last_wins",
    "Verif.Props.Wire.C08_map_order_independent",
    "Verif.Props.Wire.C08_set_elements"
   ],
   "note": "Key equality is structural equality of values."
  },
  {
   "property": "C09",
   "status": "proved",
   "theorems": [
    "Verif.Props.Wire.C09_prefix_free",
    "Verif.Props.Wire.C09_injective",
    "Verif.Props.Wire.C09_argument_list"
   ],
   "note": ""
  },
  {
   "property": "C10",
   "status": "proved",
   "theorems": [
    "Verif.Props.Wire.C10_canonical"
   ],
   "note": ""
  },
  {
   "property": "C11",
   "status": "proved",
   "theorems": [
    "Verif.Props.Wire.C11_write_panics_iff",
    "Verif.Props.Wire.C11_length_exact"
   ],
   "note": ""
  },
  {
   "property": "C12",
   "status": "partial",
   "theorems": [
    "Verif.Props.Foreign.C12_python_reads_rust",
    "Verif.Props.Foreign.C12_python_writes_rust",
    "Verif.Props.Foreign.C12_rust_reads_python",
    "Verif.Props.Foreign.C12_python_junk_rejected",
    "Verif.Props.Foreign.C12_python_duration_error",
    "Verif.Props.Foreign.C12_python_nested_option_broken",
    "Verif.Props.Foreign.C12_python_record_key_broken",
    "Verif.Props.Foreign.C12_python_time_broken"
   ],
   "note": "Both directions proved for every value Python can hold faithfully. False for the code, with witnesses: Some(None) becomes None, maps and sets keyed by unhashable Python types cannot be read, instants in the second before the epoch are mirrored. Durations and instants agree to half a microsecond."
  },
  {
   "property": "C13",
   "status": "partial",
   "theorems": [
    "Verif.Props.Foreign.C13_kotlin_reads_rust",
    "Verif.Props.Foreign.C13_kotlin_writes_rust",
    "Verif.Props.Foreign.C13_rust_reads_kotlin",
    "Verif.Props.Foreign.C13_kotlin_junk_rejected",
    "Verif.Props.Foreign.C13_kotlin_nested_option_broken",
    "Verif.Props.Foreign.C13_kotlin_tag_lenient",
    "Verif.Props.Foreign.C13_kotlin_time_broken"
   ],
   "note": "Both directions proved for every value Kotlin can hold faithfully. False for the code, with witnesses: Some(None) becomes null, instants in the second before the epoch are mirrored."
  },
  {
   "property": "C14",
   "status": "partial",
   "theorems": [
    "Verif.Props.Foreign.C14_swift_reads_rust_partial",
    "Verif.Props.Foreign.C14_swift_writes_rust_partial",
    "Verif.Props.Foreign.C14_rust_reads_swift_partial",
    "Verif.Props.Foreign.C14_swift_junk_rejected",
    "Verif.Props.SwiftTime.C14_duration_written",
    "Verif.Props.SwiftTime.C14_duration_refused",
    "Verif.Props.SwiftTime.C14_duration_read",
    "Verif.Props.SwiftTime.C14_duration_round_trip",
    "Verif.Props.SwiftTime.C14_duration_broken",
    "Verif.Props.SwiftTime.C14_duration_small_broken",
    "Verif.Props.SwiftTime.C14_duration_long_broken",
    "Verif.Props.SwiftTime.C14_time_written",
    "Verif.Props.SwiftTime.C14_time_read",
    "Verif.Props.SwiftTime.C14_time_round_trip",
    "Verif.Props.SwiftTime.C14_time_broken",
    "Verif.Props.SwiftTime.C14_time_mirrored_broken"
   ],
   "note": "Exact for every type but timestamps and durations. Those are doubles in Swift: the theorems give the error of each direction for all of them, and that a round trip through Swift loses at most a nanosecond of a duration below 2^22 seconds and less than a microsecond of an instant within 2^32 seconds of 1970. That they come back unchanged is false for the code (C14_*_broken). Infinities and NaN are not modelled."
  },
  {
   "property": "C15",
   "status": "partial",
   "theorems": [
    "Verif.Props.Foreign.C15_ruby_reads_rust_partial",
    "Verif.Props.Foreign.C15_ruby_writes_rust",
    "Verif.Props.Foreign.C15_rust_reads_ruby",
    "Verif.Props.Foreign.C15_ruby_u8_broken",
    "Verif.Props.Foreign.C15_ruby_duration_broken",
    "Verif.Props.Foreign.C15_ruby_junk_accepted",
    "Verif.Props.Foreign.C15_ruby_nested_option_broken",
    "Verif.Props.Foreign.C15_ruby_time_broken"
   ],
   "note": "The writing direction holds for all values Ruby can hold faithfully. The reading direction is false for the code for u8 above 127 and for durations of 2^63 s or more, proved for every such value; trailing bytes are accepted."
  },
  {
   "property": "C16",
   "status": "proved",
   "theorems": [
    "Verif.Props.Buffer.C16_allocation_size",
    "Verif.Props.Buffer.C16_utf16_bound",
    "Verif.Props.Buffer.C16_lower_into_rust_buffer",
    "Verif.Props.Buffer.C16_failure_frees"
   ],
   "note": "Sizes are natural numbers; the ULong sum cannot wrap for values that fit in memory."
  },
  {
   "property": "C17",
   "status": "proved",
   "theorems": [
    "Verif.Props.Buffer.C17_builder",
    "Verif.Props.Buffer.C17_failed_reserve_double_free"
   ],
   "note": "For every chunking up to isize::MAX bytes. Above that (not reachable in practice) a failed reserve is followed by a second free; shown separately."
  },
  {
   "property": "C18",
   "status": "proved",
   "theorems": [
    "Verif.Props.Buffer.C18_alloc",
    "Verif.Props.Buffer.C18_from_bytes",
    "Verif.Props.Buffer.C18_reserve",
    "Verif.Props.Buffer.C18_vec_round_trip",
    "Verif.Props.Buffer.C18_inconsistent_iff",
    "Verif.Props.Buffer.C18_null_empty"
   ],
   "note": ""
  },
  {
   "property": "C19",
   "status": "proved",
   "theorems": [
    "Verif.Props.Buffer.C19_no_leak_no_double_free",
    "Verif.Props.Buffer.C19_twice_is_undefined"
   ],
   "note": ""
  },
  {
   "property": "C20",
   "status": "proved",
   "theorems": [
    "Verif.Props.Call.C20_rust_call",
    "Verif.Props.Call.C20_exclusive",
    "Verif.Props.Call.C20_message_panic",
    "Verif.Props.Call.C20_internal_message_unguarded",
    "Verif.Props.Call.C20_try_rust_call"
   ],
   "note": "The internal-error message of a Rust call is lowered outside the second catch_unwind; shown separately."
  },
  {
   "property": "C21",
   "status": "proved",
   "theorems": [
    "Verif.Props.Call.C21_runs_iff_all_lift",
    "Verif.Props.Call.C21_all_lift",
    "Verif.Props.Call.C21_first_failure",
    "Verif.Props.Call.C21_lift_panic"
   ],
   "note": ""
  },
  {
   "property": "C22",
   "status": "proved",
   "theorems": [
    "Verif.Props.Call.C22_end_to_end",
    "Verif.Props.Call.C22_channels",
    "Verif.Props.Call.C22_bad_argument",
    "Verif.Props.Call.C22_python",
    "Verif.Props.Call.C22_kotlin",
    "Verif.Props.Call.C22_swift",
    "Verif.Props.Call.C22_ruby",
    "Verif.Props.Call.C22_status",
    "Verif.Props.Call.C22_status_unique"
   ],
   "note": "Generic over a binding whose converters agree with Rust; instantiated for the four languages with the restrictions of C12 to C15 on the types passed."
  },
  {
   "property": "C23",
   "status": "proved",
   "theorems": [
    "Verif.Props.Call.C23_unexpected",
    "Verif.Props.Call.C23_lift_foreign_return",
    "Verif.Props.Call.C23_end_to_end",
    "Verif.Props.Call.C23_contract_broken"
   ],
   "note": ""
  },
  {
   "property": "C24",
   "status": "proved",
   "theorems": [
    "Verif.Props.FfiBuffer.C24_round_trip",
    "Verif.Props.FfiBuffer.C24_position",
    "Verif.Props.FfiBuffer.C24_call",
    "Verif.Props.FfiBuffer.C24_unknown_code"
   ],
   "note": ""
  },
  {
   "property": "C25",
   "status": "proved",
   "theorems": [
    "Verif.Props.Async.C25_at_most_once",
    "Verif.Props.Async.C25_only_given",
    "Verif.Props.Async.C25_exactly_once",
    "Verif.Props.Async.C25_free_cancels",
    "Verif.Props.Async.C25_one_parked",
    "Verif.Props.Async.C25_no_deadlock",
    "Verif.Props.Async.C25_bounded",
    "Verif.Props.Async.C25_finishes"
   ],
   "note": "Transition system with any number of concurrent calls; invariant by induction over all executions. Mutex poisoning not modelled."
  },
  {
   "property": "C26",
   "status": "proved",
   "theorems": [
    "Verif.Props.Async.C26_not_dropped",
    "Verif.Props.Async.C26_no_lost_wakeup",
    "Verif.Props.Async.C26_finishes",
    "Verif.Props.Async.C26_no_spurious_wake"
   ],
   "note": "The first for every client; the second, about the continuation of that very poll, for clients that poll again only after their continuation was called (the generated drivers do)."
  },
  {
   "property": "C27",
   "status": "proved",
   "theorems": [
    "Verif.Props.Async.C27_not_polled",
    "Verif.Props.Async.C27_never_wake",
    "Verif.Props.Async.C27_later_ready",
    "Verif.Props.Async.C27_parked_ready",
    "Verif.Props.Async.C27_sticky"
   ],
   "note": ""
  },
  {
   "property": "C28",
   "status": "proved",
   "theorems": [
    "Verif.Props.Async.C28_completed",
    "Verif.Props.Async.C28_finishes_once",
    "Verif.Props.Async.C28_ready_complete",
    "Verif.Props.Async.C28_second",
    "Verif.Props.Async.C28_unfinished",
    "Verif.Props.Async.C28_never_polled_again",
    "Verif.Props.Async.C28_result",
    "Verif.Props.Async.C28_lower_panics",
    "Verif.Props.Async.C28_complete_reports"
   ],
   "note": ""
  },
  {
   "property": "C29",
   "status": "proved",
   "theorems": [
    "Verif.Props.Async.C29_no_use_after_release",
    "Verif.Props.Async.C29_released",
    "Verif.Props.Async.C29_dropped"
   ],
   "note": ""
  },
  {
   "property": "C30",
   "status": "proved",
   "theorems": [
    "Verif.Props.ForeignFuture.C30_at_most_once",
    "Verif.Props.ForeignFuture.C30_no_lost_wake",
    "Verif.Props.ForeignFuture.C30_next_poll_ready",
    "Verif.Props.ForeignFuture.C30_never_pending_again",
    "Verif.Props.ForeignFuture.C30_woken_once"
   ],
   "note": "Every interleaving of polls, drop, send; one step is one mutex region, one reference count operation or one call of foreign code."
  },
  {
   "property": "C31",
   "status": "proved",
   "theorems": [
    "Verif.Props.ForeignFuture.C31_called_once",
    "Verif.Props.ForeignFuture.C31_dropped_callback",
    "Verif.Props.ForeignFuture.C31_channel_released",
    "Verif.Props.ForeignFuture.C31_not_completed_not_released",
    "Verif.Props.ForeignFuture.C31_reports",
    "Verif.Props.ForeignFuture.C31_reports_once_partial",
    "Verif.Props.ForeignFuture.C31_reports_once_python_ruby",
    "Verif.Props.ForeignFuture.C31_python_hangs",
    "Verif.Props.ForeignFuture.C31_kotlin_hangs",
    "Verif.Props.ForeignFuture.C31_same_as_sync"
   ],
   "note": "The claim itself is proved. Beyond it: the generated Python and Kotlin wrappers do not report at all when the returned value cannot be lowered (C31_python_hangs, C31_kotlin_hangs), so exactly-one report is only proved under that condition (C31_reports_once_partial)."
  },
  {
   "property": "C32",
   "status": "proved",
   "theorems": [
    "Verif.Props.Driver.C32_disciplined",
    "Verif.Props.Driver.C32_protocol",
    "Verif.Props.Driver.C32_never_stuck",
    "Verif.Props.Driver.C32_one_outstanding",
    "Verif.Props.Driver.C32_handle_found",
    "Verif.Props.Driver.C32_map_empty",
    "Verif.Props.Driver.C32_complete_after_ready",
    "Verif.Props.Driver.C32_result",
    "Verif.Props.Driver.C32_released",
    "Verif.Props.Driver.C32_no_missed_wake"
   ],
   "note": "The await loops of Python, Kotlin and Swift (one loop, three spellings) composed with the Rust future of C25-C29, for all interleavings and cancellation points. Ruby polls differently and is not covered."
  },
  {
   "property": "C33",
   "status": "proved",
   "theorems": [
    "Verif.Props.Objects.C33_memory_safe",
    "Verif.Props.Objects.C33_dropped_once",
    "Verif.Props.Objects.C33_alive_iff_held",
    "Verif.Props.Objects.C33_no_leak"
   ],
   "note": "Every history of making, cloning, dropping, passing in both directions and calling, for objects, trait interfaces and callback interfaces."
  },
  {
   "property": "C34",
   "status": "proved",
   "theorems": [
    "Verif.Props.HandleMap.C34_odd",
    "Verif.Props.HandleMap.C34_distinct",
    "Verif.Props.HandleMap.C34_get",
    "Verif.Props.HandleMap.C34_remove",
    "Verif.Props.HandleMap.C34_clone",
    "Verif.Props.HandleMap.C34_invalid",
    "Verif.Props.HandleMap.C34_one_object",
    "Verif.Props.HandleMap.C34_holds",
    "Verif.Props.HandleMap.C34_no_deadlock"
   ],
   "note": "Handle maps of Python, Kotlin, Swift and Ruby, every interleaving of any number of threads; as long as fewer than 2^63 handles were made (after that Kotlin and Swift counters would wrap)."
  },
  {
   "property": "C35",
   "status": "proved",
   "theorems": [
    "Verif.Props.Objects.C35_dispatch",
    "Verif.Props.Objects.C35_returns",
    "Verif.Props.Objects.C35_low_bit",
    "Verif.Props.Objects.C35_proxies_even",
    "Verif.Props.Objects.C35_entry_removed",
    "Verif.Props.Objects.C35_foreign_only_confused"
   ],
   "note": "For every kind of trait implemented on a side its declaration allows. C35_foreign_only_confused shows what happens if Rust code implements a trait exported as foreign-only: handles are confused."
  },
  {
   "property": "C36",
   "status": "proved",
   "theorems": [
    "Verif.Props.KotlinObject.C36_no_use_after_free",
    "Verif.Props.KotlinObject.C36_freed_once",
    "Verif.Props.KotlinObject.C36_freed_on_request",
    "Verif.Props.KotlinObject.C36_freed_after_calls",
    "Verif.Props.KotlinObject.C36_freed_at_last",
    "Verif.Props.KotlinObject.C36_counter_bounded",
    "Verif.Props.KotlinObject.C36_argument_unprotected"
   ],
   "note": "Any number of threads, one step per access to an atomic variable, plus the garbage collector. The cleaner contract (an action runs at most once) is assumed. C36_argument_unprotected is the violation for arguments."
  },
  {
   "property": "C37",
   "status": "proved",
   "theorems": [
    "Verif.Props.Metadata.C37_exact",
    "Verif.Props.Metadata.C37_long_length"
   ],
   "note": "Over every chain of concat calls, nested buffers included; a panic in the const evaluation is a build that fails. Op.bytes and Op.Short are the specification."
  },
  {
   "property": "C38",
   "status": "proved",
   "theorems": [
    "Verif.Props.Metadata.C38_type_round_trip",
    "Verif.Props.Metadata.C38_type_injective",
    "Verif.Props.Metadata.C38_types_kept_apart"
   ],
   "note": "Over every exportable type, nested to any depth, with any data behind it. Vec<u8> and byte slices become bytes; no other types are merged."
  },
  {
   "property": "C39",
   "status": "proved",
   "theorems": [
    "Verif.Props.Metadata.C39_item_round_trip",
    "Verif.Props.Metadata.C39_any_offset",
    "Verif.Props.Metadata.C39_injective"
   ],
   "note": "Over every item the macros and the UDL template emit. Item.meaning is the specification; the checksums of the methods packed in a built-in trait, which nothing compares, are left open."
  },
  {
   "property": "C40",
   "status": "proved",
   "theorems": [
    "Verif.Props.Metadata.C40_trailing_data",
    "Verif.Props.Metadata.C40_no_prefix",
    "Verif.Props.Metadata.C40_prefix_free",
    "Verif.Props.Metadata.C40_truncation_panics"
   ],
   "note": "A truncated item is never taken for a complete one; the last theorem shows the reader can panic instead of returning an error."
  },
  {
   "property": "C41",
   "status": "proved",
   "theorems": [
    "Verif.Props.Metadata.C41_same_function",
    "Verif.Props.Metadata.C41_library_checksum",
    "Verif.Props.Metadata.C41_checksum_agrees",
    "Verif.Props.Metadata.C41_kotlin_check"
   ],
   "note": "Over every exported function, method, constructor and trait method; fnv16 is the specification. The Kotlin check is modelled with its 32-bit carrier."
  },
  {
   "property": "C42",
   "status": "proved",
   "theorems": [
    "Verif.Props.Checksum.C42_injective",
    "Verif.Props.Checksum.C42_prefix_free",
    "Verif.Props.Checksum.C42_ignored",
    "Verif.Props.Checksum.C42_interface_distinct",
    "Verif.Props.Checksum.C42_interface",
    "Verif.Props.Checksum.C42_types",
    "Verif.Props.Checksum.C42_methods_of_different_objects",
    "Verif.Props.Checksum.C42_functions",
    "Verif.Props.Checksum.C42_methods",
    "Verif.Props.Checksum.C42_constructors",
    "Verif.Props.Checksum.C42_records",
    "Verif.Props.Checksum.C42_enums",
    "Verif.Props.Checksum.C42_objects",
    "Verif.Props.Checksum.C42_callbacks",
    "Verif.Props.Checksum.C42_customs"
   ],
   "note": "For every family of types deriving Checksum and for the declared interface types; about the bytes fed to the hasher, not about collisions of the 16-bit hash."
  },
  {
   "property": "C43",
   "status": "proved",
   "theorems": [
    "Verif.Props.Group.C43_partition",
    "Verif.Props.Group.C43_no_duplicates",
    "Verif.Props.Group.C43_everywhere_once",
    "Verif.Props.Group.C43_accepts",
    "Verif.Props.Group.C43_no_panic"
   ],
   "note": "Grouping of a library's metadata by crate. The item set of a group is modelled as a duplicate-free list (BTreeSet order is not modelled)."
  },
  {
   "property": "C44",
   "status": "proved",
   "theorems": [
    "Verif.Props.Names.C44_same_symbols",
    "Verif.Props.Names.C44_builtin_symbols",
    "Verif.Props.Names.C44_kinds_apart",
    "Verif.Props.Names.C44_distinct",
    "Verif.Props.Names.C44_distinct_same_object",
    "Verif.Props.Names.C44_crates_apart",
    "Verif.Props.Names.C44_ffi_buffer_distinct",
    "Verif.Props.Names.C44_underscore_collision",
    "Verif.Props.Names.C44_case_collision",
    "Verif.Props.Names.C44_crate_collision"
   ],
   "note": "The last three theorems are witnesses that the conditions on names are needed."
  },
  {
   "property": "C45",
   "status": "proved",
   "theorems": [
    "Verif.Props.Sort.C45_complete",
    "Verif.Props.Sort.C45_permutation",
    "Verif.Props.Sort.C45_order",
    "Verif.Props.Sort.C45_acyclic"
   ],
   "note": "dependency sort of definitions: nothing lost or duplicated, dependencies first unless on a cycle"
  },
  {
   "property": "C46",
   "status": "partial",
   "theorems": [
    "Verif.Props.Recursive.C46_terminates",
    "Verif.Props.Recursive.C46_marked_is_recursive",
    "Verif.Props.Recursive.C46_cycle_broken_partial",
    "Verif.Props.Recursive.C46_self",
    "Verif.Props.Recursive.C46_acyclic",
    "Verif.Props.Recursive.C46_missed",
    "Verif.Props.Recursive.C46_custom_missed"
   ],
   "note": "marked implies recursive, and every cycle has a marked member, for every visiting order. The converse for every member is false: witness C46_missed. Recursion through custom types is not seen: C46_custom_missed."
  },
  {
   "property": "C47",
   "status": "partial",
   "theorems": [
    "Verif.Props.Discr.C47_pipeline",
    "Verif.Props.Discr.C47_too_wide",
    "Verif.Props.Discr.C47_enum",
    "Verif.Props.Discr.C47_legacy_partial",
    "Verif.Props.Discr.C47_legacy_broken"
   ],
   "note": "The newer pipeline (Python) is proved completely. The generators of Kotlin, Swift and Ruby are wrong for implicit discriminants of 2^63 and more in a repr(u64) enum: witness C47_legacy_broken, the rest proved."
  },
  {
   "property": "C48",
   "status": "partial",
   "theorems": [
    "Verif.Props.TypeWalk.C48_iter_sound",
    "Verif.Props.TypeWalk.C48_iter_partial",
    "Verif.Props.TypeWalk.C48_iter_skips_box",
    "Verif.Props.TypeWalk.C48_rename_shape",
    "Verif.Props.TypeWalk.C48_rename_partial",
    "Verif.Props.TypeWalk.C48_rename_skips_box",
    "Verif.Props.TypeWalk.C48_names_and_shape"
   ],
   "note": "Complete for types without Box; the code does not look into Box, witnesses included."
  },
  {
   "property": "C49",
   "status": "proved",
   "theorems": [
    "Verif.Props.Version.C49_exact",
    "Verif.Props.Version.C49_equality"
   ],
   "note": "Byte comparison and length limit, including that no index is out of bounds."
  },
  {
   "property": "C50",
   "status": "proved",
   "theorems": [
    "Verif.Props.Abi.C50_rust",
    "Verif.Props.Abi.C50_order_python",
    "Verif.Props.Abi.C50_order_legacy",
    "Verif.Props.Abi.C50_python",
    "Verif.Props.Abi.C50_swift",
    "Verif.Props.Abi.C50_kotlin",
    "Verif.Props.Abi.C50_ruby",
    "Verif.Props.Abi.C50_arguments",
    "Verif.Props.Abi.C50_python_names_broken"
   ],
   "note": "Python and Swift: equal types in every slot; Kotlin up to signs, Ruby up to what pointers point to. The Rust table struct is not repr(C); the model assumes declaration order. A Python trait method called _uniffi_free breaks the table: C50_python_names_broken."
  },
  {
   "property": "C51",
   "status": "proved",
   "theorems": [
    "Verif.Props.Buffer.C51_foreign_bytes"
   ],
   "note": ""
  },
  {
   "property": "C52",
   "status": "partial",
   "theorems": [
    "Verif.Props.Abi.C52_python_partial",
    "Verif.Props.Abi.C52_swift_partial",
    "Verif.Props.Abi.C52_kotlin_partial",
    "Verif.Props.Abi.C52_ruby_partial",
    "Verif.Props.Abi.C52_completion",
    "Verif.Props.Abi.C52_vec_broken",
    "Verif.Props.Abi.C52_ruby_slice_broken"
   ],
   "note": "exact characterisation from source to declaration: the signatures agree iff no argument is &Vec<u8> (Ruby: iff no argument borrows bytes). Witnesses C52_vec_broken and C52_ruby_slice_broken. Kotlin up to signs and the 32 bit carrier of small unsigned returns, Ruby up to what pointers point to."
  },
  {
   "property": "C54",
   "status": "partial",
   "theorems": [
    "Verif.Props.TypeWalk.C54_known_partial",
    "Verif.Props.TypeWalk.C54_one_definition",
    "Verif.Props.TypeWalk.C54_accepts",
    "Verif.Props.TypeWalk.C54_box_broken",
    "Verif.Props.TypeWalk.C54_crate",
    "Verif.Props.TypeWalk.C54_normalize",
    "Verif.Props.TypeWalk.C54_external"
   ],
   "note": "Complete for types without Box; with Box a needed type can be missing, witness C54_box_broken."
  },
  {
   "property": "C55",
   "status": "partial",
   "theorems": [
    "Verif.Props.TypeWalk.C55_terminates",
    "Verif.Props.TypeWalk.C55_sound",
    "Verif.Props.TypeWalk.C55_complete_partial",
    "Verif.Props.TypeWalk.C55_object_references_partial",
    "Verif.Props.TypeWalk.C55_unsigned_partial",
    "Verif.Props.TypeWalk.C55_box_broken"
   ],
   "note": "Complete for definitions without Box; objects behind a Box are missed, witness C55_box_broken."
  },
  {
   "property": "C58",
   "status": "partial",
   "theorems": [
    "Verif.Props.Default.C58_attribute",
    "Verif.Props.Default.C58_kotlin_partial",
    "Verif.Props.Default.C58_written_partial",
    "Verif.Props.Default.C58_swift_partial",
    "Verif.Props.Default.C58_python_partial",
    "Verif.Props.Default.C58_python_not_shared",
    "Verif.Props.Default.C58_ruby_partial",
    "Verif.Props.Default.C58_end_to_end_partial",
    "Verif.Props.Default.C58_strings",
    "Verif.Props.Default.C58_quote_broken",
    "Verif.Props.Default.C58_backslash_broken",
    "Verif.Props.Default.C58_template_broken",
    "Verif.Props.Default.C58_kotlin_min_broken",
    "Verif.Props.Default.C58_point_broken",
    "Verif.Props.Default.C58_collection_broken"
   ],
   "note": "Holds for all defaults whose strings need no escaping (exact condition proved), floats with digits after the point, not the smallest 64-bit integer in Kotlin, and `[]` on sequences only; each exclusion has a proved counterexample."
  },
  {
   "property": "C59",
   "status": "partial",
   "theorems": [
    "Verif.Props.Udl.C59_integer",
    "Verif.Props.Udl.C59_value_partial",
    "Verif.Props.Udl.C59_accepted",
    "Verif.Props.Udl.C59_range_broken",
    "Verif.Props.Udl.C59_upper_broken",
    "Verif.Props.Udl.C59_end_to_end_partial"
   ],
   "note": "Values that fit the type are exact; the code also accepts values that do not fit and refuses 0X (both proved)."
  },
  {
   "property": "C56",
   "status": "partial",
   "theorems": [
    "Verif.Props.Canonical.C56_kotlin_partial",
    "Verif.Props.Canonical.C56_swift_partial",
    "Verif.Props.Canonical.C56_python_partial",
    "Verif.Props.Canonical.C56_keys_broken",
    "Verif.Props.Canonical.C56_modules_broken",
    "Verif.Props.Canonical.C56_interface_partial"
   ],
   "note": "Proved for types whose map keys contain no user-defined type; C56_keys_broken and C56_modules_broken show that the code violates the claim otherwise. Ruby is not modelled."
  },
  {
   "property": "C57",
   "status": "partial",
   "theorems": [
    "Verif.Props.Rename.C57_python_partial",
    "Verif.Props.Rename.C57_python_closed_partial",
    "Verif.Props.Rename.C57_python_symbols_partial",
    "Verif.Props.Rename.C57_legacy_partial",
    "Verif.Props.Rename.C57_legacy_symbols_partial",
    "Verif.Props.Rename.C57_legacy_closed_partial",
    "Verif.Props.Rename.C57_init_symbol_broken",
    "Verif.Props.Rename.C57_owner_broken",
    "Verif.Props.Rename.C57_places_broken",
    "Verif.Props.Rename.C57_callback_key_broken",
    "Verif.Props.Rename.C57_external_broken",
    "Verif.Props.Rename.C57_box_broken"
   ],
   "note": "The renamed interface equals the one described by the configuration, under conditions that are exactly the places the code misses; each missed place has a witness."
  },
  {
   "property": "C60",
   "status": "partial",
   "theorems": [
    "Verif.Props.Rename.C60_python",
    "Verif.Props.Rename.C60_legacy_partial",
    "Verif.Props.Rename.C60_table_broken",
    "Verif.Props.Rename.C60_external_broken"
   ],
   "note": "Proved in full for Python; for Kotlin, Swift and Ruby if no method of a trait with a callback table is left out (C60_table_broken shows the violation)."
  },
  {
   "property": "C61",
   "status": "partial",
   "theorems": [
    "Verif.Props.Paths.C61_terminates",
    "Verif.Props.Paths.C61_sound",
    "Verif.Props.Paths.C61_history",
    "Verif.Props.Paths.C61_order_partial",
    "Verif.Props.Paths.C61_repeat",
    "Verif.Props.Paths.C61_order_broken",
    "Verif.Props.Paths.C61_declared",
    "Verif.Props.Paths.C61_declared_twice",
    "Verif.Props.Paths.C61_imported",
    "Verif.Props.Paths.C61_glob",
    "Verif.Props.Paths.C61_glob_conflict",
    "Verif.Props.Paths.C61_self_broken",
    "Verif.Props.Paths.C61_raw_broken",
    "Verif.Props.Paths.C61_private_broken",
    "Verif.Props.Paths.C61_builtin_panics",
    "Verif.Props.Paths.C61_use",
    "Verif.Props.Paths.C61_use_accepted",
    "Verif.Props.Paths.C61_use_self_broken",
    "Verif.Props.Paths.C61_reach"
   ],
   "note": "Independence of the history is proved for paths whose imports can be followed to an end; with cyclic globs it fails (C61_order_broken). Visibility is not taken into account by the code."
  },
  {
   "property": "C62",
   "status": "partial",
   "theorems": [
    "Verif.Props.Public.C62_terminates",
    "Verif.Props.Public.C62_importable",
    "Verif.Props.Public.C62_name",
    "Verif.Props.Public.C62_complete_partial",
    "Verif.Props.Public.C62_direct",
    "Verif.Props.Public.C62_repeat",
    "Verif.Props.Public.C62_function_glob_broken",
    "Verif.Props.Public.C62_function_module_broken",
    "Verif.Props.Public.C62_private_broken",
    "Verif.Props.Public.C62_shadow_broken",
    "Verif.Props.Public.C62_cache_broken",
    "Verif.Props.Public.C62_nested_broken"
   ],
   "note": "Proved for every program and every history of lookups: the search ends, what it returns is a public module that exports the item under the returned name, and a type that some public module leads to is found. The full claim is false; the theorems ending in _broken are proved counterexamples: functions behind glob imports, private items, shadowed names, modules inside glob-imported modules, and a function and a type with one path."
  },
  {
   "property": "C63",
   "status": "partial",
   "theorems": [
    "Verif.Props.SrcTypes.C63_terminates_partial",
    "Verif.Props.SrcTypes.C63_sound_partial",
    "Verif.Props.SrcTypes.C63_reach",
    "Verif.Props.SrcTypes.C63_cycle_reported",
    "Verif.Props.SrcTypes.C63_meta",
    "Verif.Props.SrcTypes.C63_meta_only",
    "Verif.Props.SrcTypes.C63_arg",
    "Verif.Props.SrcTypes.C63_arg_only",
    "Verif.Props.SrcTypes.C63_return",
    "Verif.Props.SrcTypes.C63_return_only",
    "Verif.Props.SrcTypes.C63_argument_partial",
    "Verif.Props.SrcTypes.C63_result_partial",
    "Verif.Props.SrcTypes.C63_receiver_partial",
    "Verif.Props.SrcTypes.C63_alias_loops",
    "Verif.Props.SrcTypes.C63_custom_loops",
    "Verif.Props.SrcTypes.C63_parameters_broken",
    "Verif.Props.SrcTypes.C63_trait_broken",
    "Verif.Props.SrcTypes.C63_bytes_broken"
   ],
   "note": "Proved for every program, type and history: what is accepted is what the type stands for, and it is recorded as the macros record it. Assumed: traits behind dyn are in the crate of use and not renamed, and type parameters do not share names with items. Without these the claim is false; the theorems ending in _broken and _loops are proved counterexamples (an alias or custom type that contains itself never ends; parameters used outside a direct generic argument; traits of other crates; byte slices written through an alias). Missing: that every type with a meaning is accepted."
  },
  {
   "property": "C64",
   "status": "partial",
   "theorems": [
    "Verif.Props.Cfg.C64_predicate_partial",
    "Verif.Props.Cfg.C64_attributes_partial",
    "Verif.Props.Cfg.C64_program_partial",
    "Verif.Props.Cfg.C64_unix_broken",
    "Verif.Props.Cfg.C64_nested_broken",
    "Verif.Props.Cfg.C64_use_broken",
    "Verif.Props.Cfg.C64_struct_broken",
    "Verif.Props.Cfg.C64_impl_broken"
   ],
   "note": "Proved for every program, condition and environment: the items read are those of the program that the compiler goes on with. Assumed: conditions are about the target, features, or options that are not set; no condition inside cfg_attr; imports, aliases, macros, structs, enums and trait impls are not left out. Without these the claim is false; the theorems ending in _broken are proved counterexamples."
  },
  {
   "property": "C65",
   "status": "partial",
   "theorems": [
    "Verif.Props.Emit.C65_program_partial",
    "Verif.Props.Emit.C65_function_partial",
    "Verif.Props.Emit.C65_record_partial",
    "Verif.Props.Emit.C65_enum_partial",
    "Verif.Props.Emit.C65_discriminant_broken",
    "Verif.Props.Emit.C65_doc_broken",
    "Verif.Props.Emit.C65_default_broken",
    "Verif.Props.Emit.C65_constructor_broken",
    "Verif.Props.Emit.C65_trait_impl_broken",
    "Verif.Props.Emit.C65_attributes",
    "Verif.Props.Emit.C65_trim"
   ],
   "note": "Proved for every program: the metadata is that of the exported items, part by part (C65_program_partial), and for functions, methods, constructors, fields, records and enums without explicit values it is what the macros record when they accept the defaults. Left open: types from UDL files and types for which C63 is false; that every impl of From is noticed; parts where sources and macros disagree, for which the theorems ending in _broken are proved counterexamples."
  },
  {
   "property": "C66",
   "status": "partial",
   "theorems": [
    "Verif.Props.Assemble.C66_namespaces",
    "Verif.Props.Assemble.C66_functions",
    "Verif.Props.Assemble.C66_functions_placed",
    "Verif.Props.Assemble.C66_types",
    "Verif.Props.Assemble.C66_types_placed",
    "Verif.Props.Assemble.C66_constructors",
    "Verif.Props.Assemble.C66_methods",
    "Verif.Props.Assemble.C66_impls",
    "Verif.Props.Assemble.C66_order",
    "Verif.Props.Assemble.C66_refused",
    "Verif.Props.Assemble.C66_accepted",
    "Verif.Props.Assemble.C66_references",
    "Verif.Props.Assemble.C66_rust_name",
    "Verif.Props.Assemble.C66_resolved",
    "Verif.Props.Assemble.C66_legacy",
    "Verif.Props.Assemble.C66_legacy_custom",
    "Verif.Props.Assemble.C66_legacy_orphans",
    "Verif.Props.Assemble.C66_agree",
    "Verif.Props.Assemble.C66_orphans_broken",
    "Verif.Props.Assemble.C66_same_name_broken",
    "Verif.Props.Assemble.C66_rust_name_broken",
    "Verif.Props.Assemble.C66_custom_name_broken",
    "Verif.Props.Assemble.C66_two_namespaces_broken",
    "Verif.Props.Assemble.C66_legacy_accepts",
    "Verif.Props.Assemble.C66_legacy_positions"
   ],
   "note": "Proved for every list of items: each namespace holds exactly the functions and types of its crate, each type exactly the members that name it, the result does not depend on the order of the items, contradictions are refused and everything else accepted, and both ways of building the interface agree. Left open where the code disagrees with the statement, with proved counterexamples (theorems ending in _broken): members of absent types are dropped silently for Python, types of one name in two modules share members, Rust names of custom types and of definitions with one exported name are lost, a crate with two namespaces. Not modelled: the set of known types that a ComponentInterface also checks, configuration and documentation of modules."
  },
  {
   "property": "C67",
   "status": "proved",
   "theorems": [
    "Verif.Props.Udl.C67_accepts",
    "Verif.Props.Udl.C67_says",
    "Verif.Props.Udl.C67_unambiguous",
    "Verif.Props.Udl.C67_order",
    "Verif.Props.Udl.C67_panic",
    "Verif.Props.Udl.C67_custom_order",
    "Verif.Props.Udl.C67_panics",
    "Verif.Props.Udl.C67_enum_traits_dropped",
    "Verif.Props.Udl.C67_second_throws_ignored",
    "Verif.Props.Udl.C67_throws_any_type",
    "Verif.Props.Udl.C67_doc_lost",
    "Verif.Props.Udl.C67_builtin_shadows",
    "Verif.Props.Udl.C67_same_name_functions",
    "Verif.Props.Udl.C67_same_name_callbacks",
    "Verif.Props.Udl.C67_variant_marks_ignored",
    "Verif.Props.Udl.C67_enum_and_error"
   ],
   "note": "Proved for every list of parsed definitions. The specification spells out what is ignored; the theorems after C67_panic show each such case. Not modelled: the parser (weedle) and the removal of indentation from documentation."
  },
  {
   "property": "C68",
   "status": "partial",
   "theorems": [
    "Verif.Props.Scaffold.C68_calls_python",
    "Verif.Props.Scaffold.C68_calls_swift",
    "Verif.Props.Scaffold.C68_calls_kotlin",
    "Verif.Props.Scaffold.C68_calls_ruby_partial",
    "Verif.Props.Scaffold.C68_builtin_python_partial",
    "Verif.Props.Scaffold.C68_builtin_others_partial",
    "Verif.Props.Scaffold.C68_tables_python_partial",
    "Verif.Props.Scaffold.C68_tables_others_partial",
    "Verif.Props.Scaffold.C68_checksums",
    "Verif.Props.Scaffold.C68_callback_checksums_partial",
    "Verif.Props.Scaffold.C68_callback_order",
    "Verif.Props.Scaffold.C68_panics",
    "Verif.Props.Scaffold.C68_trait_interface_unserved",
    "Verif.Props.Scaffold.C68_error_unserved",
    "Verif.Props.Scaffold.C68_enum_display_unserved",
    "Verif.Props.Scaffold.C68_enum_debug_needs_display",
    "Verif.Props.Scaffold.C68_async_callback_differs",
    "Verif.Props.Scaffold.C68_renamed_callback_checksum",
    "Verif.Props.Scaffold.C68_throws_record_panics"
   ],
   "note": "Functions, constructors, methods and handles: proved for every accepted file in Python, Swift and Kotlin (there up to signs), in Ruby without references to bytes. Methods of built-in traits: false for trait interfaces, enums used as errors and Display of enums (witnesses), proved otherwise. Tables of callbacks: false for async methods of callback interfaces (witness), proved otherwise without references to bytes. Checksums of renamed callback methods differ (witness)."
  },
  {
   "property": "C69",
   "status": "partial",
   "theorems": [
    "Verif.Props.ErrorFormat.C69_error_delivered_partial",
    "Verif.Props.ErrorFormat.C69_sends_message_iff",
    "Verif.Props.ErrorFormat.C69_agree_iff",
    "Verif.Props.ErrorFormat.C69_misread_lost",
    "Verif.Props.ErrorFormat.C69_error_taken",
    "Verif.Props.ErrorFormat.C69_flat_not_taken",
    "Verif.Props.ErrorFormat.C69_udl_callback_errors_read",
    "Verif.Props.ErrorFormat.C69_exception_iff",
    "Verif.Props.ErrorFormat.C69_python_exception_iff_partial",
    "Verif.Props.ErrorFormat.C69_thrown_plain_enum_broken",
    "Verif.Props.ErrorFormat.C69_namesake_broken",
    "Verif.Props.ErrorFormat.C69_udl_enum_thrown_by_macro_broken",
    "Verif.Props.ErrorFormat.C69_python_not_raised_broken"
   ],
   "note": "Proved for every declaration and value except the misread ones, which are characterised exactly: enums without fields that Rust treats as ordinary enums while the bindings count their name as an error; no value of those arrives (witnesses for a thrown derive(Enum), a namesake in another crate, and a UDL enum thrown by a macro function). Python makes no exception of an enum thrown only by another crate (witness). Fields of error types are of types without flat errors inside."
  },
  {
   "property": "C70",
   "status": "partial",
   "theorems": [
    "Verif.Props.JniLayout.C70_alignment",
    "Verif.Props.JniLayout.C70_record",
    "Verif.Props.JniLayout.C70_variant",
    "Verif.Props.JniLayout.C70_option",
    "Verif.Props.JniLayout.C70_items",
    "Verif.Props.JniLayout.C70_entries",
    "Verif.Props.JniLayout.C70_unplaceable_rejected",
    "Verif.Props.JniLayout.C70_message_error_broken",
    "Verif.Props.JniLayout.C70_empty_item_broken",
    "Verif.Props.JniLayout.C70_other_crate_broken",
    "Verif.Props.JniLayout.C70_tangled_broken"
   ],
   "note": "Proved for every interface whose names are distinct. Errors sent as messages are written outside their place, items of size 0 divide by zero, and some correct interfaces are rejected because of the order of definitions (witnesses)."
  },
  {
   "property": "C71",
   "status": "partial",
   "theorems": [
    "Verif.Props.JniFfi.C71_variant_fits",
    "Verif.Props.JniFfi.C71_variant_round_trip",
    "Verif.Props.JniFfi.C71_record_round_trip_partial",
    "Verif.Props.JniFfi.C71_all_types_mapped",
    "Verif.Props.JniFfi.C71_unit_field_broken"
   ],
   "note": "Proved for every interface whose names are distinct and every way the fields are taken apart. Missing: records passed as one value that is not in the first field, for which the generated code is wrong (witness)."
  },
  {
   "property": "C72",
   "status": "partial",
   "theorems": [
    "Verif.Props.JniSimple.C72_int",
    "Verif.Props.JniSimple.C72_option_int",
    "Verif.Props.JniSimple.C72_option_bool",
    "Verif.Props.JniSimple.C72_option_f32",
    "Verif.Props.JniSimple.C72_option_f64_partial",
    "Verif.Props.JniSimple.C72_option_f64_nan_broken",
    "Verif.Props.JniSimple.C72_duration_to_kotlin_partial",
    "Verif.Props.JniSimple.C72_long_duration_broken",
    "Verif.Props.JniSimple.C72_duration_to_rust",
    "Verif.Props.JniSimple.C72_timestamp_to_kotlin_partial",
    "Verif.Props.JniSimple.C72_timestamp_to_rust_partial",
    "Verif.Props.JniSimple.C72_just_before_epoch_broken",
    "Verif.Props.JniSimple.C72_string_to_kotlin",
    "Verif.Props.JniSimple.C72_string_to_rust"
   ],
   "note": "Proved for all integers, optional small integers, bools and strings. Missing, because the code does otherwise (witnesses): the optional 64-bit NaN with all bits set, durations of 2^63 seconds and more, instants less than a second before the epoch; the smallest instant of Rust is left out. Modified UTF-8 as read and written by the JVM and by simd_cesu8 is written out in the model, as these are third-party code."
  },
  {
   "property": "C73",
   "status": "partial",
   "theorems": [
    "Verif.Props.JniValues.C73_round_trip_partial",
    "Verif.Props.JniValues.C73_arguments_partial",
    "Verif.Props.JniValues.C73_buffer_partial",
    "Verif.Props.JniValues.C73_big_list_broken",
    "Verif.Props.JniValues.C73_nested_option_broken",
    "Verif.Props.JniValues.C73_negative_handle_broken"
   ],
   "note": "Proved for values nested to any depth. Missing, because the code does otherwise (witnesses): lists of more bytes than 32 bits count, an option in an option, optional handles that are negative, and the cases of C70-C72. Not modelled: bytes, durations and instants inside other values, callback interfaces, flat enums, user conversions of custom types, and what happens to memory after an error. Running out of memory is allowed to end a run."
  },
  {
   "property": "C75",
   "status": "partial",
   "theorems": [
    "Verif.Props.JniObjects.C75_memory_safe_partial",
    "Verif.Props.JniObjects.C75_alive_iff_held_partial",
    "Verif.Props.JniObjects.C75_kept_iff_held_partial",
    "Verif.Props.JniObjects.C75_dropped_once",
    "Verif.Props.JniObjects.C75_no_leak_partial",
    "Verif.Props.JniObjects.C75_dispatch_partial",
    "Verif.Props.JniObjects.C75_freed_once",
    "Verif.Props.JniObjects.C75_destroyed",
    "Verif.Props.JniObjects.C75_not_freed_early",
    "Verif.Props.JniObjects.C75_can_clean",
    "Verif.Props.JniObjects.C75_use_after_destroy_broken",
    "Verif.Props.JniObjects.C75_destroy_during_call_broken",
    "Verif.Props.JniObjects.C75_collected_during_call_broken",
    "Verif.Props.JniObjects.C75_fake_object_broken",
    "Verif.Props.JniObjects.C75_identity_broken"
   ],
   "note": "Proved for every history of any number of threads, objects and values. Missing, because the code does otherwise (witnesses): Kotlin code that destroys an object during a call or uses it afterwards, objects collected during a call, fake objects, identity of Kotlin objects that come home. One interface at a time; errors in the middle of a call and handles that wrap around are not modelled."
  },
  {
   "property": "C76",
   "status": "partial",
   "theorems": [
    "Verif.Props.JniAsync.C76_safe",
    "Verif.Props.JniAsync.C76_resumed_once",
    "Verif.Props.JniAsync.C76_bounded",
    "Verif.Props.JniAsync.C76_settles_partial",
    "Verif.Props.JniAsync.C76_no_lost_wakeup",
    "Verif.Props.JniAsync.C76_no_busy_loop",
    "Verif.Props.JniAsync.C76_woken_is_polled_partial",
    "Verif.Props.JniAsync.C76_not_polled_after_result",
    "Verif.Props.JniAsync.C76_outcome_partial",
    "Verif.Props.JniAsync.C76_one_result",
    "Verif.Props.JniAsync.C76_freed",
    "Verif.Props.JniAsync.C76_dropped",
    "Verif.Props.JniAsync.C76_references",
    "Verif.Props.JniAsync.C76_null_result_broken",
    "Verif.Props.JniAsync.C76_inline_deadlock_broken",
    "Verif.Props.JniAsync.C76_future_outlives_call_broken"
   ],
   "note": "Proved for every history of one call: any number of polls, wakers and threads that wake. Missing, because the code does otherwise (witnesses): null as a result, coroutines that are resumed inside the call of their continuation, and the drop of the future at the end of the call. Calls do not share state, so one call stands for all of them. Failing allocation and JVM calls, a panic while a mutex is held by the scheduler, and the cancel function (Kotlin never calls it) are not modelled."
  },
  {
   "property": "C77",
   "status": "partial",
   "theorems": [
    "Verif.Props.Extract.C77_elf",
    "Verif.Props.Extract.C77_coff",
    "Verif.Props.Extract.C77_pe",
    "Verif.Props.Extract.C77_macho_partial",
    "Verif.Props.Extract.C77_fat_partial",
    "Verif.Props.Extract.C77_archive_partial",
    "Verif.Props.Extract.C77_emitted",
    "Verif.Props.Extract.C77_symbols",
    "Verif.Props.Extract.C77_elf_no_loss",
    "Verif.Props.Extract.C77_pe_no_loss",
    "Verif.Props.Extract.C77_coff_no_loss",
    "Verif.Props.Extract.C77_macho_no_loss",
    "Verif.Props.Extract.C77_macho_order_broken",
    "Verif.Props.Extract.C77_archive_names_broken",
    "Verif.Props.Extract.C77_undefined_broken",
    "Verif.Props.Extract.C77_symbols_clash_broken",
    "Verif.Props.Extract.C77_archive_no_loss"
   ],
   "note": "Proved for every ELF, COFF and PE file, for Mach-O files whose sections are in the order of addresses, for the first part of fat files and for archives whose members have different names. The conditions left out fail in the code (witnesses), as do undefined ELF symbols. What goblin reads from a file (sections, symbols, exports, members) is the input of the model; archives inside archives are not modelled."
  },
  {
   "property": "C78",
   "status": "partial",
   "theorems": [
    "Verif.Props.Config.C78_merge",
    "Verif.Props.Config.C78_merge_fails",
    "Verif.Props.Config.C78_priority",
    "Verif.Props.Config.C78_fails",
    "Verif.Props.Config.C78_file",
    "Verif.Props.Config.C78_old_form",
    "Verif.Props.Config.C78_crate_roots",
    "Verif.Props.Config.C78_jni_crate_roots_broken",
    "Verif.Props.Config.C78_other_type_broken"
   ],
   "note": "Proved for all tables, layers, crates and file systems. Missing, because the code does otherwise (witnesses): values of another type do not replace but fail; the generator for Kotlin with JNI asks Cargo before [crate-roots]. Parsing of TOML and what the generators make of settings are not modelled."
  },
  {
   "property": "C79",
   "status": "partial",
   "theorems": [
    "Verif.Props.Sources.C79_ends",
    "Verif.Props.Sources.C79_found",
    "Verif.Props.Sources.C79_once_partial",
    "Verif.Props.Sources.C79_features_partial",
    "Verif.Props.Sources.C79_root_partial",
    "Verif.Props.Sources.C79_root_of_package",
    "Verif.Props.Sources.C79_implied_features_broken",
    "Verif.Props.Sources.C79_spelling_broken",
    "Verif.Props.Sources.C79_twice_broken",
    "Verif.Props.Sources.C79_versions_broken",
    "Verif.Props.Sources.C79_root_broken"
   ],
   "note": "Proved for every graph of packages. Missing, because the code does otherwise (witnesses): features implied by other features; crates given by crate name instead of package name; several versions of a package; libraries called like another package. The output of cargo metadata is the input of the model."
  },
  {
   "property": "C80",
   "status": "partial",
   "theorems": [
    "Verif.Props.JniCallback.C80_signature",
    "Verif.Props.JniCallback.C80_call_function_partial",
    "Verif.Props.JniCallback.C80_result",
    "Verif.Props.JniCallback.C80_result_unique",
    "Verif.Props.JniCallback.C80_value",
    "Verif.Props.JniCallback.C80_error",
    "Verif.Props.JniCallback.C80_unexpected",
    "Verif.Props.JniCallback.C80_pending_partial",
    "Verif.Props.JniCallback.C80_frames_partial",
    "Verif.Props.JniCallback.C80_async_result",
    "Verif.Props.JniCallback.C80_async_object",
    "Verif.Props.JniCallback.C80_async_once",
    "Verif.Props.JniCallback.C80_async_woken",
    "Verif.Props.JniCallback.C80_async_released_partial",
    "Verif.Props.JniCallback.C80_async_ends",
    "Verif.Props.JniCallback.C80_boolean_broken",
    "Verif.Props.JniCallback.C80_async_function_broken",
    "Verif.Props.JniCallback.C80_pending_broken",
    "Verif.Props.JniCallback.C80_frames_broken",
    "Verif.Props.JniCallback.C80_abort_broken",
    "Verif.Props.JniCallback.C80_async_pending_broken",
    "Verif.Props.JniCallback.C80_async_launch_broken",
    "Verif.Props.JniCallback.C80_async_cancel_broken",
    "Verif.Props.JniCallback.C80_async_args_broken",
    "Verif.Props.JniCallback.C80_place",
    "Verif.Props.JniDispatch.C80_after_error_partial",
    "Verif.Props.JniDispatch.C80_pointer",
    "Verif.Props.JniDispatch.C80_names",
    "Verif.Props.JniDispatch.C80_after_error_broken"
   ],
   "note": "Proved for every method, every nesting of calls and every interleaving of async calls. Missing, because the code does otherwise (witnesses): methods that return booleans and async methods that return one FFI value are called with the wrong function of the JNI; exceptions whose getMessage throws; panics of user code that converts values; what is left when launching a coroutine throws or a future is dropped. After an error the Kotlin function ends with a value of its declared type exactly for methods that are not async with a result of one FFI value; methods have functions of their own if an interface has at most a million of them."
  },
  {
   "property": "C81",
   "status": "partial",
   "theorems": [
    "Verif.Props.UdlText.C81_read",
    "Verif.Props.UdlText.C81_layout",
    "Verif.Props.UdlText.C81_unambiguous",
    "Verif.Props.UdlText.C81_metadata",
    "Verif.Props.UdlText.C81_last_comment_broken",
    "Verif.Props.UdlText.C81_only_comment_broken",
    "Verif.Props.UdlText.C81_comment_then_doc_broken",
    "Verif.Props.UdlText.C81_comment_in_doc_broken",
    "Verif.Props.UdlText.C81_name_broken"
   ],
   "note": "Proved for every file made of the constructs that UniFFI supports, in every layout. Missing: comments in the places where the parser refuses them, and types with names that WebIDL reserves (witnesses); what the parser does with files that do not follow the grammar. Removing the indentation of documentation is the subject of C84."
  },
  {
   "property": "C82",
   "status": "partial",
   "theorems": [
    "Verif.Props.TraitOps.C82_eq_partial",
    "Verif.Props.TraitOps.C82_ne_partial",
    "Verif.Props.TraitOps.C82_other",
    "Verif.Props.TraitOps.C82_order",
    "Verif.Props.TraitOps.C82_hash_partial",
    "Verif.Props.TraitOps.C82_hash_range",
    "Verif.Props.TraitOps.C82_keys_partial",
    "Verif.Props.TraitOps.C82_display_partial",
    "Verif.Props.TraitOps.C82_debug_partial",
    "Verif.Props.TraitOps.C82_default",
    "Verif.Props.TraitOps.C82_kotlin_eq_without_hash_broken",
    "Verif.Props.TraitOps.C82_kotlin_object_eq_without_hash_broken",
    "Verif.Props.TraitOps.C82_swift_eq_without_hash_broken",
    "Verif.Props.TraitOps.C82_jni_variant_broken",
    "Verif.Props.TraitOps.C82_jni_symmetry_broken",
    "Verif.Props.TraitOps.C82_ruby_variants_broken",
    "Verif.Props.TraitOps.C82_dropped_broken",
    "Verif.Props.TraitOps.C82_swift_error_text_broken",
    "Verif.Props.TraitOps.C82_builds_broken",
    "Verif.Props.TraitOps.C82_other_type_broken"
   ],
   "note": "Proved for every implementation of the traits in Rust, every value and every set of exported traits. Missing: the types and combinations for which the languages do something else (witnesses), subclasses written by users, trait interfaces, implementations that panic."
  },
  {
   "property": "C83",
   "status": "partial",
   "theorems": [
    "Verif.Props.BindingNames.C83_legal_iff",
    "Verif.Props.BindingNames.C83_legal_partial",
    "Verif.Props.BindingNames.C83_digit_broken",
    "Verif.Props.BindingNames.C83_underscores_broken",
    "Verif.Props.BindingNames.C83_ruby_in_broken",
    "Verif.Props.BindingNames.C83_swift_any_broken",
    "Verif.Props.BindingNames.C83_swift_bytes_partial",
    "Verif.Props.BindingNames.C83_swift_bytes_broken",
    "Verif.Props.BindingNames.C83_same_iff",
    "Verif.Props.BindingNames.C83_apart_partial",
    "Verif.Props.BindingNames.C83_kotlin_errors",
    "Verif.Props.BindingNames.C83_kotlin_errors_broken",
    "Verif.Props.BindingNames.C83_apart_broken",
    "Verif.Props.BindingNames.C83_usual_snake",
    "Verif.Props.BindingNames.C83_usual_camel",
    "Verif.Props.BindingNames.C83_spelling",
    "Verif.Props.BindingNames.C83_spelling_types",
    "Verif.Props.BindingNames.C83_python_params_partial",
    "Verif.Props.BindingNames.C83_python_self_broken",
    "Verif.Props.BindingNames.C83_native_iff",
    "Verif.Props.BindingNames.C83_native_usual",
    "Verif.Props.BindingNames.C83_native_partial",
    "Verif.Props.BindingNames.C83_native_broken",
    "Verif.Props.BindingNames.C83_style",
    "Verif.Props.BindingNames.C83_style_errors"
   ],
   "note": "Exact conditions for every name of ASCII letters, digits and underscores, every language and every place. Missing: the names for which the claim is false (witnesses), names with other characters, and clashes with the names that the bindings define themselves."
  },
  {
   "property": "C84",
   "status": "partial",
   "theorems": [
    "Verif.Props.Docs.C84_comment",
    "Verif.Props.Docs.C84_comment_lines",
    "Verif.Props.Docs.C84_comment_text",
    "Verif.Props.Docs.C84_escape",
    "Verif.Props.Docs.C84_dedent",
    "Verif.Props.Docs.C84_python_end",
    "Verif.Props.Docs.C84_python_text_partial",
    "Verif.Props.Docs.C84_python_backslash_broken",
    "Verif.Props.Docs.C84_python_none",
    "Verif.Props.Docs.C84_udl",
    "Verif.Props.Docs.C84_rust_partial",
    "Verif.Props.Docs.C84_rust_indent_broken"
   ],
   "note": "Kotlin, Swift and the end of the string in Python are proved for every text. Missing: the value of the string in Python when the text has backslashes (false, witness), and the indentation of doc comments from Rust (false, witness). Ruby and the JNI bindings print no documentation."
  },
  {
   "property": "C85",
   "status": "partial",
   "theorems": [
    "Verif.Props.Dynamic.C85_python_arg_partial",
    "Verif.Props.Dynamic.C85_python_accept",
    "Verif.Props.Dynamic.C85_python_refuse",
    "Verif.Props.Dynamic.C85_python_none",
    "Verif.Props.Dynamic.C85_python_result_partial",
    "Verif.Props.Dynamic.C85_python_result_broken",
    "Verif.Props.Dynamic.C85_python_bool_broken",
    "Verif.Props.Dynamic.C85_python_box_broken",
    "Verif.Props.Dynamic.C85_ruby_arg_partial",
    "Verif.Props.Dynamic.C85_ruby_accept",
    "Verif.Props.Dynamic.C85_ruby_option_bool_broken",
    "Verif.Props.Dynamic.C85_ruby_float_broken",
    "Verif.Props.Dynamic.C85_ruby_enum_broken"
   ],
   "note": "Proved for both languages in both directions, for values that are fine at every place (a predicate on types and values). What the predicate leaves out is false, with a witness for each: in Python results of methods, numbers as truth values inside other values, boxes of numbers and strings; in Ruby false for optional truth values, floats for integers, values that are no variant of an enum. Not modelled: timestamps, durations, objects, custom types, and keys of a Ruby hash that become equal when converted."
  },
  {
   "property": "C86",
   "status": "partial",
   "theorems": [
    "Verif.Props.Pipe.C86_visit_partial",
    "Verif.Props.Pipe.C86_try_visit",
    "Verif.Props.Pipe.C86_has_descendant",
    "Verif.Props.Pipe.C86_no_false_alarm",
    "Verif.Props.Pipe.C86_leaf_broken",
    "Verif.Props.Pipe.C86_searches",
    "Verif.Props.Pipe.C86_async",
    "Verif.Props.Pipe.C86_types",
    "Verif.Props.Pipe.C86_print_partial",
    "Verif.Props.Pipe.C86_print_broken",
    "Verif.Props.Pipe.C86_unchanged",
    "Verif.Props.Pipe.C86_rewritten",
    "Verif.Props.Pipe.C86_failure",
    "Verif.Props.Pipe.C86_passes",
    "Verif.Props.Pipe.C86_parts"
   ],
   "note": "Walking, searching and rebuilding are proved for every tree, every type and every order of hash sets. Two things are false, each with a witness: looking for a leaf type such as String always panics, and a filter by type prints no node without children. Not modelled: the attributes from and added of derive(MapNode), and updates of the context while a tree is rebuilt. C86_rewritten is for trees without sets and maps, which can merge elements that become equal; C86_failure is for all."
  },
  {
   "property": "C87",
   "status": "partial",
   "theorems": [
    "Verif.Props.LoadCheck.C87_load",
    "Verif.Props.LoadCheck.C87_python_load_partial",
    "Verif.Props.LoadCheck.C87_python_sources_broken",
    "Verif.Props.LoadCheck.C87_compared_partial",
    "Verif.Props.LoadCheck.C87_refused_partial",
    "Verif.Props.LoadCheck.C87_accepted",
    "Verif.Props.LoadCheck.C87_record_broken",
    "Verif.Props.LoadCheck.C87_python_compared_partial",
    "Verif.Props.LoadCheck.C87_python_record_broken",
    "Verif.Props.LoadCheck.C87_python_callback_broken",
    "Verif.Props.LoadCheck.C87_refused_carried_partial"
   ],
   "note": "Which functions Kotlin, Swift and Python compare is proved exactly, and that Kotlin and Swift refuse a library in which one of these differs. The full statement is false: methods of records and enums are compared by no language, methods of callback interfaces not by Python, and bindings for Python made from sources do not even compare the contract version. Ruby and Kotlin over JNI compare nothing and are not modelled. That checksums differ when items differ is not part of this: C42 is about the input of the hash. Simplified: a missing function is noticed when it is compared."
  },
  {
   "property": "C88",
   "status": "partial",
   "theorems": [
    "Verif.Props.Export.C88_arguments",
    "Verif.Props.Export.C88_function",
    "Verif.Props.Export.C88_function_says",
    "Verif.Props.Export.C88_defaults_partial",
    "Verif.Props.Export.C88_no_default",
    "Verif.Props.Export.C88_default_twice_broken",
    "Verif.Props.Export.C88_default_bare_broken",
    "Verif.Props.Export.C88_attributes",
    "Verif.Props.Export.C88_attribute_partial",
    "Verif.Props.Export.C88_two_attributes_broken",
    "Verif.Props.Export.C88_confused_broken",
    "Verif.Props.Export.C88_cfg_attr_broken",
    "Verif.Props.Export.C88_impl",
    "Verif.Props.Export.C88_impl_says",
    "Verif.Props.Export.C88_trait_impl_broken",
    "Verif.Props.Export.C88_self",
    "Verif.Props.Export.C88_trait_arguments",
    "Verif.Props.Export.C88_trait",
    "Verif.Props.Export.C88_trait_says",
    "Verif.Props.Export.C88_trait_order",
    "Verif.Props.Export.C88_trait_runtime_broken",
    "Verif.Props.Export.C88_trait_no_async_broken",
    "Verif.Props.Export.C88_struct",
    "Verif.Props.Export.C88_impl_self"
   ],
   "note": "Which functions, impl blocks, traits, structs and enums are refused is proved exactly, and what the others become. The full statement, that nothing written is dropped, is false: of two attributes or two default values for the same argument the first is lost, attributes with arguments under cfg_attr are passed over, a runtime on a method of a trait does nothing, and the record that a renamed type implements a trait keeps the old name. Simplified: attributes and types are trees rather than tokens, lifetimes and other qualifiers are left out, tuples have two components, and errors of syn and of the compiler are not modelled."
  },
  {
   "property": "C89",
   "status": "partial",
   "theorems": [
    "Verif.Props.Derive.C89_record",
    "Verif.Props.Derive.C89_object",
    "Verif.Props.Derive.C89_enum",
    "Verif.Props.Derive.C89_error",
    "Verif.Props.Derive.C89_read_record_partial",
    "Verif.Props.Derive.C89_read_object",
    "Verif.Props.Derive.C89_read_enum_partial",
    "Verif.Props.Derive.C89_read_error_partial",
    "Verif.Props.Derive.C89_default_first_broken",
    "Verif.Props.Derive.C89_with_try_read_broken",
    "Verif.Props.Derive.C89_unknown_callback_broken",
    "Verif.Props.Derive.C89_repr_broken",
    "Verif.Props.Derive.C89_smallest_broken",
    "Verif.Props.Derive.C89_error_repr_broken",
    "Verif.Props.Derive.C89_reader_lenient_broken"
   ],
   "note": "What the derive macros accept is proved exactly, and what they record. That the reader of sources reads the same is proved for all records, objects, enums and errors that avoid the differences found: default alone before another argument, with_try_read, words in repr other than integer types, the smallest i64, and repr on an error. For these the full statement is false, with witnesses. Names on fields of tuples are left out. Simplified: attributes are trees rather than tokens; only the metadata is modelled here, not the generated impls."
  },
  {
   "property": "C90",
   "status": "partial",
   "theorems": [
    "Verif.Props.JniCalls.C90_unique",
    "Verif.Props.JniCalls.C90_exact",
    "Verif.Props.JniCalls.C90_apart",
    "Verif.Props.JniCalls.C90_options",
    "Verif.Props.JniCalls.C90_calls_partial",
    "Verif.Props.JniCalls.C90_bytes_broken",
    "Verif.Props.JniCalls.C90_callback_broken",
    "Verif.Props.JniCalls.C90_throws_broken",
    "Verif.Props.JniCalls.C90_empty_broken"
   ],
   "note": "For every interface and each of the two sides it is proved which conversion functions exist (exactly), that no two have the same name, and that two types never share one. That all called ones exist is proved when bytes (unless boxed), callback interfaces and errors sent as a message do not stand inside other values, options are of types with something to pass, and callback interfaces and such errors only go the supported way. For the rest the full statement is false, with witnesses. Simplified: names are compared, not the bodies of the functions; functions that do not convert values are left out."
  },
  {
   "property": "C91",
   "status": "partial",
   "theorems": [
    "Verif.Props.JniLookup.C91_variables",
    "Verif.Props.JniLookup.C91_params",
    "Verif.Props.JniLookup.C91_fields",
    "Verif.Props.JniLookup.C91_signature_partial",
    "Verif.Props.JniLookup.C91_found_partial",
    "Verif.Props.JniLookup.C91_custom_broken",
    "Verif.Props.JniLookup.C91_nested_option_broken",
    "Verif.Props.JniLookup.C91_box_broken",
    "Verif.Props.JniLookup.C91_box_primitive_broken"
   ],
   "note": "For every interface it is proved that each looked-up function has exactly one variable for it, that the parameters have the right descriptors, and that values go in the member of the union that is read. For which types the whole signature is the one of the Kotlin function is proved exactly, custom types aside: lists, maps and sets with any options around them, and other types but strings and bytes with at most one option around them, and none around i32. For these the function returns an object, as the call expects, but for primitive types in boxes. For the rest, and for custom types over strings, the full statement is false, with witnesses. Simplified: the descriptors that the Kotlin compiler gives are a specification, the names of packages and classes are any names without dots or backticks in classes, and custom types have no configuration."
  },
  {
   "property": "C92",
   "status": "partial",
   "theorems": [
    "Verif.Props.JniNatives.C92_found",
    "Verif.Props.JniNatives.C92_declared",
    "Verif.Props.JniNatives.C92_once",
    "Verif.Props.JniNatives.C92_declared_once_partial",
    "Verif.Props.JniNatives.C92_results",
    "Verif.Props.JniNatives.C92_leftover_broken",
    "Verif.Props.JniNatives.C92_box_twice_broken",
    "Verif.Props.JniNativeResults.C92_result",
    "Verif.Props.JniNativeResults.C92_helper_result_partial",
    "Verif.Props.JniNativeResults.C92_buffer_result",
    "Verif.Props.JniNativeResults.C92_into_inner_broken"
   ],
   "note": "For every interface it is proved that each declared function but one has an exported function with the symbol that is looked for and the same parameters, that each exported function is declared, and that results share functions only if they are the same. That nothing is exported twice needs that functions and methods of the interface have different native names (C83 says when). That nothing is declared twice is proved if each class and box is defined in one crate only; a box used in two crates is a counterexample. Results are passed as Kotlin expects them for every function of the interface and every helper function, exactly but for taking a number out of a box, which is a counterexample. Simplified: names are in ASCII letters."
  }
 ]
}