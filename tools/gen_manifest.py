"""Writes MANIFEST.json from the table below."""
import json
P, R, N = "proved", "partial", "not_applicable"
claims = [
 ("C01", R, ["TsFile.C01_index_read_back_partial", "TsFile.C01_accepted_read_back_partial", "TsFile.C01_device_partial", "TsFile.C01_device_accepted_partial", "TsFile.C01_hundred_million_partial", "TsFile.C01_ten_billion_partial", "TsFile.C01_snappy_partial", "TsFile.C01_dotted_wrong", "TsFile.C01_mixed_wrong", "TsFile.C01_dots_wrong", "TsFile.C33_deep_index_wrong"],
  "Proved for every measurement without dots of a device that is not mixed up with others and has at most 65536 such measurements, whatever the other devices are (C01_device_partial). False for every measurement with a dot of such a device (C01_dotted_wrong), for mixed up devices (C01_mixed_wrong) and for more measurements (C33). A scan finds all points with every schema (C02)."),
 ("C02", P, ["TsFile.C02_scan", "TsFile.C02_scan_accepted", "TsFile.C02_snappy"], ""),
 ("C03", P, ["TsFile.C03_write_decision", "TsFile.C03_answer_unique", "TsFile.C03_waiting"],
  "The answer is given by the table Answer, in every reached state with less than 4 GB of waiting points (22 bytes each, 120 for each series)."),
 ("C04", P, ["TsFile.C04_rejected_no_trace", "TsFile.C04_session"], ""),
 ("C05", R, ["TsFile.C05_like_writes_partial", "TsFile.C05_same_as_writes_partial", "TsFile.C05_ok_stored_partial", "TsFile.C05_ok_scanned_partial", "TsFile.C05_kept_wrong", "TsFile.C05_lost_wrong", "TsFile.C05_not_atomic", "TsFile.C05_lost"],
  "The part about failing calls is false: the points before the failing one are kept, in every history in which a later call succeeds (C05_kept_wrong; C05_not_atomic is an example), or silently lost, for every series (C05_lost_wrong; C05_lost is an example with its file)."),
 ("C06", R, ["TsFile.C06_bursts_partial", "TsFile.C06_bursts_scanned_partial", "TsFile.C06_increasing_partial", "TsFile.C06_any_time_wrong", "TsFile.C06_restart", "TsFile.C06_closed_wrong"],
  "Increasing within each burst between two automatic flushes; false across them: after every call that made the output grow the next point may have any time (C06_any_time_wrong); so in the output (C06_restart) and in closed files read through the index (C06_closed_wrong)."),
 ("C15", P, ["TsFile.C15_self_check"], ""),
 ("C41", P, ["TsFile.C41_bounded", "TsFile.C41_all_flushed", "TsFile.C41_flush_happens", "TsFile.C49_calls"], ""),
 ("C42", R, ["TsFile.C42_closed_writer_accepts", "TsFile.C42_still_accepts", "TsFile.C42_second_close"],
  "False in every reached state: a point that was acceptable before close is acceptable after it (C42_still_accepts), and every second close appends a second footer (C42_second_close). C42_closed_writer_accepts is a concrete run."),
 ("C43", R, ["TsFile.C43_error_partial", "TsFile.C43_wrong_type_aborts"],
  "False: in every reached state an in-order point of a known series with a value of another type aborts the program."),
 ("C49", R, ["TsFile.C49_calls", "TsFile.C49_session_partial", "TsFile.C49_small_partial", "TsFile.C49_forty_one_partial", "TsFile.C25_wide_wrong", "TsFile.C27_serialise_fails"],
  "Calls never abort; closing completes exactly if the stored points are Closable (at most 256 names before the last dots of the paths, serialisable filter size, no hash -2^31), for any schema, which the code does not guarantee. With the filter size that the crate computes, every program with up to 41 series completes (C49_forty_one_partial)."),
 ("C25", R, ["TsFile.C25_devices_partial", "TsFile.C25_too_many_devices", "TsFile.C25_wide_wrong", "TsFile.C25_dotted_wrong"],
  "False beyond 256 devices: closing always aborts; with dots in measurement names even for one device. Proved, for any schema: it completes (filter conditions apart) exactly if the paths have at most 256 different parts before their last dots, with one root entry for each."),
 ("C29", R, ["TsFile.C29_order_partial", "TsFile.C29_two_wrong", "TsFile.C29_order_wrong"],
  "False for every history with points of two devices (C29_two_wrong): the order of the device nodes follows the hash map. Proved for any schema: everything else is the same for any two orders (index reads: for devices for which the index is correct, Schema.IndexableAt); identical files with one entry in the root node."),
 ("C33", R, ["TsFile.C33_found_partial", "TsFile.C33_device_partial", "TsFile.C33_deep_index_wrong", "TsFile.C33_session_wrong", "TsFile.C33_stray_wrong"],
  "False beyond 65536 measurements per device: the index then leads nowhere, or to the points of another device. Proved for whole sessions: with one such device no series is found; with a second device whose node comes first, reading gives that device's points. Proved up to 65536."),
 ("C50", P, ["TsFile.C50_recoverable", "TsFile.C50_recoverable_points"], ""),
 ("C07", R, ["TsFile.C07_varint_round_trip", "TsFile.C07_own_reader_wrong", "TsFile.C07_own_reader_partial"],
  "The standard reader always recovers the number. The crate's own reader does so exactly when no byte 0xFF is written; it is wrong otherwise."),
 ("C08", P, ["TsFile.C08_varint_sizes"], ""),
 ("C09", P, ["TsFile.C09_signed_and_strings"], ""),
 ("C10", P, ["TsFile.C10_ts2diff_long"], ""),
 ("C11", P, ["TsFile.C11_ts2diff_int"], ""),
 ("C12", P, ["TsFile.C12_plain"], ""),
 ("C16", P, ["TsFile.C16_count", "TsFile.C16_present"], "Statistics of every page of the file, with any schema; and those of series and chunks in the index, for devices for which the index is correct (Schema.IndexableAt). The field has 32 bits."),
 ("C17", P, ["TsFile.C17_time_range"], ""),
 ("C18", P, ["TsFile.C18_int_min_max"], ""),
 ("C19", R, ["TsFile.C19_first_last_partial", "TsFile.C19_zero_wrong", "TsFile.C19_first_wrong"],
  "The first value is wrong when the only timestamp is 2^63-1 (C19_first_wrong): it is then always zero (C19_zero_wrong). Proved otherwise."),
 ("C20", P, ["TsFile.C20_int_sum"], ""),
 ("C21", R, ["TsFile.C21_float_min_max_partial", "TsFile.C21_attained_partial", "TsFile.C21_infinity_wrong", "TsFile.C21_nan_wrong"],
  "True of the minimum if and only if some value is a number below infinity, of the maximum if and only if some value is a number above minus infinity (C21_attained_partial)."),
 ("C26", P, ["TsFile.C26_bloom"], ""),
 ("C27", R, ["TsFile.C27_serialise_partial", "TsFile.C27_few_partial", "TsFile.C27_closing_wrong", "TsFile.C27_serialise_fails"],
  "Proved for up to 43 paths. False as stated: the number of bits must not leave remainder 1, 2 or 3 modulo 8; closing aborts every program whose stored points have such a number of paths, for example exactly 44 (C27_closing_wrong)."),
 ("C38", P, ["TsFile.C38_codes"], ""),
 ("C44", P, ["TsFile.C44_murmur"], ""),
 ("C13", P, ["TsFile.C13_marker", "TsFile.C13_policy_scan", "TsFile.C13_policy_invisible", "TsFile.C13_chunk"], "C13_policy_invisible reads through the index and needs a device for which the index is correct (Schema.IndexableAt); the others hold for every schema."),
 ("C14", P, ["TsFile.C14_page_points", "TsFile.C14_full_pages"], ""),
 ("C22", P, ["TsFile.C22_offsets"], "For devices for which the index is correct (Schema.IndexableAt), in any schema."),
 ("C23", R, ["TsFile.C23_index_partial", "TsFile.C23_device_partial", "TsFile.C23_dotted_wrong", "TsFile.C23_dots_wrong"],
  "Proved for measurement names without dots and at most 65536 measurements per device, with these conditions on the whole schema (C23_index_partial) or on the device alone (C23_device_partial); false for every stored series with a dot in its measurement (C23_dotted_wrong, C23_dots_wrong)."),
 ("C24", R, ["TsFile.C24_sorted_partial", "TsFile.C24_device_partial", "TsFile.C24_reversed_wrong", "TsFile.C24_devices_wrong"],
  "Proved for measurement nodes, with conditions on the whole schema or on the device alone; false for the node that lists the devices, in every file with two of them if the hash map gives them in descending order."),
 ("C40", P, ["TsFile.C40_empty_close"], ""),
 ("C28", P, ["TsFile.C28_footer"], ""),
 ("C30", P, ["TsFile.C30_append_only", "TsFile.C30_crash_prefix"], ""),
 ("C31", P, ["TsFile.C31_full_disk", "TsFile.C31_full_disk_close", "TsFile.C31_full_disk_abort"],
  "As long as no write call of either run aborts; if only the limited close aborts, the content is already the same n bytes."),
 ("C32", R, ["TsFile.C32_create_partial", "TsFile.C32_never_reported", "TsFile.C32_silent_wrong", "TsFile.C32_calls_wrong", "TsFile.C32_index_wrong", "TsFile.C32_short_wrong"],
  "False: after creation no call ever reports an output error. For every session: on an output that gets full in close all calls return what they return on an unlimited one and the file is cut (C32_calls_wrong); if only the index does not fit, close returns too (C32_index_wrong); a short program gets full in close on every output with room for the head (C32_short_wrong). Proved: creation fails exactly if the header does not fit."),
 ("C47", P, ["TsFile.C47_position", "TsFile.C47_write_all"], "As a 64 bit number, for every inner writer."),
 ("C51", R, ["TsFile.C51_data_partial", "TsFile.C51_short_writes_partial", "TsFile.C51_write_all", "TsFile.C73_file", "TsFile.C51_short_writes_wrong", "TsFile.C51_file_wrong", "TsFile.C51_seven_wrong"],
  "False: index nodes go through single write calls whose result is ignored. Proved, for whole programs, for outputs that take calls of at most 8 bytes whole (C73_file); for outputs that take at most 7 bytes at a time the file of every program is too short (C51_seven_wrong); on every output that never fails, the file is the same up to the marker after the data, and a scan finds all points (C51_data_partial)."),
 ("C39", P, ["TsFile.C39_device", "TsFile.C39_schema", "TsFile.C39_wf", "TsFile.C39_simple"], "For every iteration order of hash maps; building a device without measurements aborts."),
 ("C34", P, ["TsFile.C34_history", "TsFile.C34_schema"], "For payloads below 2^31 bytes and every checksum function; C34_golden checks CRC-32 against the bytes in the repository's tests."),
 ("C35", P, ["TsFile.C35_canonical", "TsFile.C35_injective", "TsFile.C35_zero"], "SHA-256 itself is outside the model."),
 ("C36", R, ["TsFile.C36_order_partial", "TsFile.C36_confirmed", "TsFile.C36_reason", "TsFile.C36_error_stops", "TsFile.C36_status_wrong", "TsFile.C36_data_digest_wrong", "TsFile.C36_ignored_wrong"],
  "Order, confirmation and connection failures are proved; failures reported in a status, and a refused digest of the data file, are ignored."),
 ("C37", R, ["TsFile.C37_stable_partial", "TsFile.C37_wrong", "TsFile.C37_replaced_wrong", "TsFile.C37_truncated"],
  "Proved if reading the stored identity never fails; false otherwise."),
 ("C52", R, ["TsFile.C52_content_partial", "TsFile.C52_wrong_file", "TsFile.C52_never_wrong"],
  "False: the file read is the one whose name has 0_0_ in front. Proved if both have the same content."),
 ("C48", P, ["TsFile.Thrift.C48_reply", "TsFile.Thrift.C48_numbers", "TsFile.Thrift.C48_not_twice"], "For all bytes that can come in."),
 ("C53", R, ["TsFile.Thrift.C53_unchanged_partial", "TsFile.Thrift.C53_end_to_end", "TsFile.Thrift.C53_missing_field_wrong", "TsFile.Thrift.C53_large_wrong"],
  "False for a check call in which optional fields are missing (they arrive as empty ones) and for calls of 2^31 bytes and more (their length is sent as a negative number). Proved, over the bytes of the binary protocol, for all other calls."),
 ("C46", R, ["TsFile.C46_handles_partial", "TsFile.C46_all_calls", "TsFile.C46_string_wrong"],
  "Proved for programs that keep the strings they passed for a handle as long as the handle; false otherwise: a write keeps the caller's measurement string."),
 ("C54", P, ["TsFile.C54_file_of_session", "TsFile.C54_on_disk", "TsFile.C54_same_file_wrong"], "C54_file_of_session is about the output of each writer, C54_on_disk about the disk, which the writers share. The condition that no other writer opens the same file is needed: C54_same_file_wrong."),
 ("C55", R, ["TsFile.C55_times", "TsFile.C55_long_partial", "TsFile.C55_int_partial", "TsFile.C55_small_values_partial", "TsFile.C55_hash_partial", "TsFile.C55_same_partial", "TsFile.C55_calls_partial", "TsFile.C55_close_partial", "TsFile.C55_close_wrong"],
  "False: close aborts for every path of 16 bytes or more, and value pages abort exactly if two neighbouring values or two differences of a block are too far apart. Proved: timestamps never overflow; values of a quarter of the range never overflow; whenever the checks pass, the results, the states and the file are those of a release build (C55_same_partial); whole sessions with values that lie near each other pass all checks of the encoders, statistics, counters and memory estimates (C55_calls_partial), and so does close if the hashes of the paths do not overflow (C55_close_partial)."),
 ("C56", P, ["TsFile.C56_added_up", "TsFile.C56_long_exact", "TsFile.C56_float_exact", "TsFile.C56_long_error", "TsFile.C56_float_error", "TsFile.C56_nearest_wrong"],
  "Exactness under IeeeOk: additions and conversions whose exact result is a double give it. The error bound (up to 2^52 values) under IeeeRounds: other results have a relative error of at most 2^-53. ieeeOk_std and ieeeRounds_std prove both for the arithmetic of the concrete environment. C56_nearest_wrong: the sum need not be the double nearest to the exact sum."),
 ("C57", P, ["TsFile.C57_chunks", "TsFile.C57_index"], ""),
 ("C58", R, ["TsFile.C58_opened", "TsFile.C58_place", "TsFile.C58_reported", "TsFile.C58_refused", "TsFile.C58_abort_keeps", "TsFile.C58_plain", "TsFile.C58_dot", "TsFile.C58_open_partial", "TsFile.C58_wrong"],
  "Exact condition for success on plain paths. False as stated: a file that cannot be made aborts the program (C58_plain, C58_wrong)."),
 ("C59", R, ["TsFile.C59_compare_partial", "TsFile.C59_wrong"],
  "False for output errors: they are different from themselves."),
 ("C60", P, ["TsFile.Thrift.C60_request", "TsFile.Thrift.C60_answer", "TsFile.Thrift.C60_understood"], "Over the bytes of the binary protocol; requests and texts below 2^31 bytes (C53). Missing optional fields of check: C53."),
 ("C61", R, ["TsFile.Thrift.C61_reply", "TsFile.Thrift.C61_incomplete", "TsFile.Thrift.C61_call_partial", "TsFile.Thrift.C61_confirm", "TsFile.Thrift.C61_check_wrong"],
  "False for the arguments of check: a number in another field makes the server hand over empty information, and the next call on the connection cannot be read. Proved for all other calls, inside the argument of check, and for all replies."),
 ("C62", R, ["TsFile.C62_connected_partial", "TsFile.C62_errors", "TsFile.C62_refused_wrong"],
  "False: the status in the answer to the introduction is ignored, so a sender that the server refuses is connected. Everything else is proved."),
 ("C63", R, ["TsFile.C63_ends_partial", "TsFile.C63_first_call_wrong", "TsFile.C63_unreadable_wrong"],
  "False: failures of the calls 1, 5, 6 and 7, a refused digest and an unreadable file abort the program. Proved: exactly these do, the others are reported, and it stops for no other reason."),
 ("C64", R, ["TsFile.C64_transfer_partial", "TsFile.C64_numbered", "TsFile.C64_wire", "TsFile.C64_large_wrong"],
  "False for files of 2^31 bytes and more: the frame that carries them cannot be read. Proved, over the bytes on the connection, for all calls below that size; numbering and content of the wire without a bound."),
 ("C65", P, ["TsFile.C65_aborts", "TsFile.C65_completes"], ""),
 ("C66", P, ["TsFile.C66_not_early", "TsFile.C66_rare", "TsFile.C66_short"], ""),
 ("C67", P, ["TsFile.C67_size", "TsFile.C67_within", "TsFile.C67_hundred_million"], "C67_within and C67_hundred_million discharge the hypothesis Session.Within of the theorems about whole files from conditions on the inputs only; C01_hundred_million_partial is an example."),
 ("C68", P, ["TsFile.C68_blocks", "TsFile.C68_bursts", "TsFile.C68_empty_groups"], ""),
 ("C69", R, ["TsFile.C69_created_partial", "TsFile.C69_names_wrong"], "False for every schema that has a series: the log puts the storage group in front of the name."),
 ("C70", R, ["TsFile.C70_waiting_partial", "TsFile.C70_memory_wrong", "TsFile.C70_compressed_wrong"], "False: points kept by a write_many that fails midway are not counted and never cause a check; and, with successful writes only, a check after points that compress well puts the next one so far off that 1.5 GB of points that do not compress are kept. Proved for histories of successful calls on series with PLAIN encoding and without compression."),
 ("C71", P, ["TsFile.C71_call", "TsFile.C71_closing", "TsFile.C71_within", "TsFile.C71_ten_billion"], ""),
 ("C72", P, ["TsFile.C72_no_invention", "TsFile.C72_no_loss", "TsFile.C72_during_call", "TsFile.C72_closed", "TsFile.C72_accepted", "TsFile.C72_full_disk", "TsFile.C72_cut"], "What is on the disk is taken to be a beginning of what was written: the writer never seeks (C30); for reordering inside the operating system see C95."),
 ("C73", P, ["TsFile.C73_file", "TsFile.C73_limited", "TsFile.C73_no_room"], "Model/Stream.lean makes every single write and write_all of the code."),
 ("C74", R, ["TsFile.C74_partial", "TsFile.C74_recovered_partial", "TsFile.C74_stale_wrong"], "C74_recovered_partial: every point of a call that succeeds after the trouble is read back, in order. C74_partial needs fewer than 3000 points of each series from the beginning of the trouble on, C74_recovered_partial from the beginning of the trouble to the first flush after it; otherwise a series whose flush failed can get a chunk that cannot be read (C74_stale_wrong, at the level of the chunk writer). It also needs a device for which the index is correct, and at most 190 million points."),
 ("C75", P, ["TsFile.C75_exact", "TsFile.C75_size", "TsFile.C75_empty"], ""),
 ("C76", P, ["TsFile.C76_data", "TsFile.C76_pages", "TsFile.C76_file"], ""),
 ("C77", P, ["TsFile.C77_same_file", "TsFile.C77_short"], ""),
 ("C78", R, ["TsFile.C78_between", "TsFile.C78_during_call", "TsFile.C78_closed_partial", "TsFile.C78_close_wrong"], "The first two parts are proved. The last is false: close does not flush the output, so the index and the footer may still be in the buffer when it returns (C78_close_wrong); all the points are on the disk by then (C78_closed_partial). TsFileWriter::new opens a File, which has no buffer; other outputs can be given only inside the crate (new_from_writer)."),
 ("C79", P, ["TsFile.C79_no_ub", "TsFile.C79_raises", "TsFile.C79_aborts", "TsFile.C79_completes", "TsFile.C79_file", "TsFile.C79_on_disk"], "C79_file is about the output of each writer object, C79_on_disk about the disk, which they share. What cffi and CPython do is modelled as stated at the head of Model/Python.lean."),
 ("C80", R, ["TsFile.C80_small_partial", "TsFile.C80_time_wrong"], "False: rust.py declares the timestamp as int, so a timestamp of 2^31 or more (every millisecond after 25 January 1970) raises OverflowError. Proved for timestamps of 32 bits."),
 ("C81", P, ["TsFile.C81_completes", "TsFile.C81_scan", "TsFile.C81_read", "TsFile.C81_small", "TsFile.C81_ten_billion"], "C81_completes says exactly when closing completes; C81_small has no such condition, for schemas whose Bloom filter has the minimal size of 256 bits (40 series with the formula of the code)."),
 ("C82", R, ["TsFile.C82_benchmark", "TsFile.C82_benchmark2", "TsFile.C82_python", "TsFile.C82_python_main", "TsFile.C82_quickstart_partial", "TsFile.C82_quickstart_wrong"], "The benchmarks and the Python program are right. The quickstart never calls close, and its file has only the seven bytes of the head (C82_quickstart_wrong); with a call of close it would be right (C82_quickstart_partial)."),
 ("C83", R, ["TsFile.C83_arrives_partial", "TsFile.C83_alone_wrong", "TsFile.C64_large_wrong"], "False as stated: a file of 2 GiB is not transferred (C64_large_wrong), and the sender reads another file, so the transfer never succeeds if only the program's file is there, and no data arrives (C83_alone_wrong). Proved, over the wire and with all conditions on the inputs, if the file is stored under the name with 0_0_ in front (C83_arrives_partial)."),
 ("C84", P, ["TsFile.C84_orderly", "TsFile.C84_on_disk"], "C84_orderly is about the output of each writer, C84_on_disk about the disk, which the writers share. The condition that no other writer opens the same file is needed: C54_same_file_wrong."),
 ("C85", P, ["TsFile.C85_orderly", "TsFile.C85_on_disk"], "C85_orderly is about the output of each writer object, C85_on_disk about the disk, which they share. The reasons for exceptions are those of C79_raises."),
 ("C86", P, ["TsFile.C86_counts", "TsFile.C86_strings"], ""),
 ("C87", P, ["TsFile.C87_query", "TsFile.C87_accepted"], "For devices for which the index is correct (Schema.IndexableAt). The reader is Spec/Query."),
 ("C88", P, ["TsFile.C88_count", "TsFile.C88_times", "TsFile.C88_values", "TsFile.C88_sum"], "For devices for which the index is correct (Schema.IndexableAt). The reader is Spec/Aggregate. FLOAT series: C91."),
 ("C89", P, ["TsFile.C89_long", "TsFile.C89_int", "TsFile.C89_file"], "The steadiness of the series of a file is that of the stored points (storedBy)."),
 ("C90", R, ["TsFile.Thrift.C90_unknown", "TsFile.Thrift.C90_missing", "TsFile.Thrift.C90_no_text", "TsFile.Thrift.C90_told", "TsFile.Thrift.C90_next_partial", "TsFile.Thrift.C90_left_wrong"], "False in one part: the arguments of a message with an unknown name are left on the connection, so the next call is not understood (C90_left_wrong). Names below 2^27 bytes. The text of the exception for a call without its argument is not modelled."),
 ("C91", R, ["TsFile.C91_last", "TsFile.C91_first_partial", "TsFile.C91_floats_partial", "TsFile.C91_zero_wrong", "TsFile.C91_extremes_wrong", "TsFile.C91_first_wrong", "TsFile.C91_float_wrong"], "The last point is always right. The time of the first point is always right, and its value if some point that is asked for is before the time 2^63-1; otherwise the value is wrong unless it is zero (C91_zero_wrong, for every such series; C91_first_wrong is an example). The smallest value is proved if some value that is asked for is a number below infinity, the largest if some is above minus infinity; otherwise they are wrong for every such series (C91_extremes_wrong; C91_float_wrong is an example). If several points have the largest (smallest) time, one of them is given. For devices for which the index is correct (Schema.IndexableAt)."),
 ("C92", R, ["TsFile.C92_sorted_partial", "TsFile.C92_one_device_partial", "TsFile.C92_exactly", "TsFile.C92_lost_wrong", "TsFile.C92_short"], "False: the devices in the root node are in the iteration order of a hash map, so bisection misses devices (C92_lost_wrong, for any two devices given in descending order). Exactly if the devices are in ascending order everything is found (C92_exactly); always with one device. The reader is Spec/Lookup; it compares names byte by byte."),
 ("C93", R, ["TsFile.C93_scan", "TsFile.C93_open", "TsFile.C93_footer_partial", "TsFile.C93_footer_wrong"], "For a reader from front to back it holds (C93_scan for files cut off anywhere, C93_open for writers that are not closed). For a reader through the index it is false: the bytes of a name or of values can be the end of a file (C93_footer_wrong). C93_footer_partial: it holds if the six letters of the end are nowhere else in the file than at its beginning and end."),
 ("C94", R, ["TsFile.C94_calls", "TsFile.C94_together_partial", "TsFile.C94_any_time_partial", "TsFile.C94_overlaid_wrong", "TsFile.C94_same_wrong"], "Proved for writers on different files. The last sentence is false: a file can be opened twice, all calls return Ok, and the file is unreadable or has the points of one writer only, depending on the schedule (C94_same_wrong; for any two writers: C94_overlaid_wrong). The schedules are interleavings of the single system calls that Model/Stream makes (C94_calls)."),
 ("C95", R, ["TsFile.C95_synced_partial", "TsFile.C95_so_far_partial", "TsFile.C95_lost_wrong", "TsFile.C95_invented_wrong"], "False: the crate never calls fsync, so for every session a loss of power after close may leave nothing of the file (C95_lost_wrong), and it may leave a file that is read without an error and has values that were never written, because pages have no checksum (C95_invented_wrong). Proved: if another program or the caller synchronises the file after close, the whole file is safe (C95_synced_partial); if it does so between two calls, all points that were in the file then are recovered, whatever becomes of the rest (C95_so_far_partial). A crash of the program alone: C72."),
 ("C96", R, ["TsFile.C96_answers_partial", "TsFile.C96_file_partial", "TsFile.C96_orderly_partial", "TsFile.C96_long_wrong", "TsFile.C96_series_wrong", "TsFile.C96_shared_wrong"], "Proved for up to six million points (answers and file); for orderly producers up to a hundred million points every schedule gives Ok for every call and a file with exactly the points of each producer. False for longer histories with calls that fail: whether a point is refused depends on when the points of the other producers cause a flush (C96_long_wrong). Producers of the same series do depend on the schedule, for every series (C96_series_wrong; C96_shared_wrong is an example with its file). The orders in which hash maps are listed are the same in both runs (C29)."),
 ("C97", R, ["TsFile.C97_own", "TsFile.C97_delivered", "TsFile.C97_again", "TsFile.C97_wire_partial", "TsFile.C97_complete_partial", "TsFile.C97_abort_wrong"],
  "False as stated: a server that does not answer the first call of a transfer aborts the program, so that the transfers that were to follow are not made (C97_abort_wrong; C63 has the other calls that do), and a file of 2 GiB is not transferred (C64_large_wrong). Everything else is proved, for all servers and all losses of failed calls."),
 ("C98", R, ["TsFile.Thrift.C98_in_step_partial", "TsFile.Thrift.C98_stray_wrong", "TsFile.Thrift.C98_stray_status_wrong", "TsFile.Thrift.C98_kind_wrong", "TsFile.Thrift.C98_retry_wrong"],
  "Proved for servers that answer every call once and in order, with statuses or errors of their own. False behind an answer that belongs to no call: only its head is read, and the next call (the next two, if it was a status) fails whatever is answered to it; a transfer that fails for this reason is followed by one that aborts the program."),
 ("C99", R, ["TsFile.C99_measurements_partial", "TsFile.C99_devices_partial", "TsFile.C99_device_wrong"],
  "Measurements: proved in full (the whole session, file included, is the same). Devices: results, flushes, the points found by a scan and (for devices for which the index is correct) those read through the index are the same, but the file is not: every flush writes an empty chunk group for an unused device (C99_device_wrong)."),
 ("C100", R, ["TsFile.C100_exactly", "TsFile.C100_finds", "TsFile.C100_short_partial", "TsFile.C100_orderly_partial", "TsFile.C100_lost_wrong"],
  "False: after an automatic flush the times of a series may begin again (C06), and the reader does not get to the later points (C100_lost_wrong). C100_finds says what it finds in every file; it is right for every query exactly if the stored times never decrease (C100_exactly): always without an automatic flush (C100_short_partial) and for orderly programs (C100_orderly_partial). The reader is Spec/Until. For devices for which the index is correct."),
 ("C45", P, ["TsFile.C45_scan_independent", "TsFile.C45_series_independent"], "C45_series_independent reads through the index and needs a device for which the index is correct (Schema.IndexableAt); C45_scan_independent holds for every schema."),
]
json.dump({"claims": [dict(property=a, status=b, theorems=c, note=d) for a, b, c, d in sorted(claims)]},
          open("/verif/MANIFEST.json", "w"), indent=1)
