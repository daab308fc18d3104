# Formal model of tsfile-rust in Lean 4

Source: `/repo`, crates `tsfile-writer` and `tsfile-writer-c`. Model and proofs: `/verif/lean/Verif`.
Properties: `properties.jsonl`. Which theorem belongs to which property: `MANIFEST.json`.
Wrong programs tried against the theorems: `seeded/LOG.jsonl`. How to read it: entries whose id begins
with `M` were made by hand, the others were made from a list of edits. For the others the build was stopped at the first
proof that failed (`build_stopped_in`); `theorems_failed` lists the theorems of the manifest that rest on that proof. They
are not proved in that build, but it was not tried for each of them whether another proof would go through, so an entry
shows that the edit is noticed, and not that each listed claim is false of the edited program. Entries with a non-empty
`tightened` survived at first.

Contents: 1 layout, 2 modelling decisions, 3 the specifications, 4 plan per property, 5 trusted base,
6 what is modelled and what is not, 7 where the code disagrees with the properties.

## 1. Layout

| directory | content |
|---|---|
| `Verif/Model` | the code, function by function; each definition cites file and lines |
| `Verif/Spec` | specifications written without the model's helpers: a TsFile reader, an abstract writer, reference statistics, reference hash, receiver of the synchronisation, rules for C programs |
| `Verif/Proofs` | helper lemmas |
| `Verif/Props` | the property theorems, one file per group, each with an `example` that meets the hypotheses |
| `Verif/Tests` | the byte arrays of the Rust tests replayed on the model (tests, not proofs) |
| `tools` | generators of `properties.jsonl`, `MANIFEST.json`, the golden data, and the list of axioms below |

## 2. Modelling decisions

* **Integers.** `i32`/`i64`/`u32`/`u64` are `BitVec 32` / `BitVec 64`. Arithmetic wraps, as in a release build. Where a debug
  build would panic on overflow the comment says so. `usize` positions and `Vec` lengths are `Nat`.
* **Floats.** `f32`/`f64` are bit patterns. The comparison of `f32` is defined exactly, including NaN and signed zero. `f64`
  addition and integer-to-float conversion are parameters.
* **Strings** are their UTF-8 bytes (`List UInt8`). Rust orders `str` by bytes.
* **Outcomes.** `Result::Err` is data. A panic is the explicit outcome `panic` (`none` in internal functions). A theorem that says
  "does not abort" therefore says something.
* **Loops** are structural recursions. Where fuel is needed it is proved to suffice (`Proofs/Index`, `Proofs/Murmur`).
* **Maps.** A `BTreeMap` is an association list kept sorted by the byte order (`BMap`). A `HashMap` is an association list; the order
  of iteration is an arbitrary permutation supplied by the environment.
* **Environment** (`Env` in `Model/Types.lean`). Everything the crate takes from outside is a parameter, and all theorems
  quantify over it: IEEE `f64` addition and conversions, the `snap` crate, the `f32` page size heuristic, the `f64` formula for the
  size of the Bloom filter, the iteration order of hash maps. Theorems about whole files assume `EnvOk`: decompressing what
  `snap` compressed gives the input, the compressed size is at most `max_compress_len`, and the iteration order is a permutation.
  C56 assumes `IeeeOk` for its exact sums: an addition or conversion whose exact result is a double gives it
  (proved for the concrete arithmetic of `Model/EnvStd`: `ieeeOk_std`), and `IeeeRounds` for its error bound: any other result has a
  relative error of at most 2^-53 (`ieeeRounds_std`).
  CRC-32, SHA-256, the random identity and the file system of the sync sender are parameters in the same way.
  `Model/EnvStd.lean` gives one concrete environment for examples and golden tests.
* **Output.** `Sink` is a byte list with an optional capacity, so that a fault at every byte can be expressed (C30–C32). A second,
  finer model of the output (`Model/Output.lean`) runs `write_all` and `write` over an arbitrary device that may take any part of
  the offered bytes or fail (C47, C51). C51 connects the two.
* **C interface.** Memory is a list of cells (string, schema, writer). Using a freed or foreign cell is the outcome `ub`. Addresses
  are never reused.
* **Thrift.** The generated code is modelled over bytes. The part of the `thrift` crate that it uses (binary protocol, not strict when
  writing; framed transports; `skip`) is modelled in `Model/Wire.lean` after the crate, whose source is not in the repository. Where the
  crate would allocate a negative length it panics; this counts as an error of the call. Strings are bytes; that a Rust string is UTF-8
  is a hypothesis (`Sendable`).

## 3. The specifications

* `Spec/Format`, `Spec/Reader`: a TsFile v3 reader written from the format description. `readSeries` starts at the tail, `scan` at
  the first byte. Neither uses a model function, apart from the types of data types, encodings and compressions.
* `Spec/Stream`: `Faithful`, an output that does its work, however it cuts the data; `Buffering`, the same with a buffer of its own; `offered`, the points the writer was handed.
* `Spec/Reference`, `Spec/ReferenceIndex`: the part of a file before its index as a function of the points of each flush, byte by
  byte, and the index and the footer as a function of the same points.
* `Spec/Snappy`: a decoder of the Snappy format. `C01_snappy_partial` and `C02_snappy` read files with it; of the compressor they assume
  only that it puts elements of the format together that mean the data (`WritesSnappy`). `Demo.writesSnappy` is such a compressor.
* `Spec/Utf8`: UTF-8 by the encoding of characters in Lean's library. `Proofs/Utf8` shows that the modelled check accepts exactly this.
* `Spec/Query`, `Spec/Aggregate`: readers that answer range queries and aggregates with the help of the Bloom filter and the statistics.
* `Spec/Until`: a reader of range queries that stops at the end of the range (C100).
* `Spec/Lookup`: a reader that searches index nodes by bisection.
* `Spec/Several`: schedules of several writers.
* `Spec/Power`: what a loss of power can leave of a file.
* `Spec/Producers`: schedules of several producers of one writer, and what each of them calls and is answered.
* `Spec/Transfers.lean`: what a receiver may have got of the calls of a sender (`Got`), the files that belong to a transfer (`Belongs`), the
  files after complete transfers (`complete`).
* `Spec/Conversation.lean`: the answers to a list of calls, one for each, as bytes one after the other (C98).
* `Spec/Unused.lean`: when two schemas say the same about a call (C99).
* `Spec/Steady`: numbers whose neighbours differ by numbers from a range of 2^k.
* `Spec/Recover`: a scan that keeps the complete chunks of a file that may end at any byte.
* `Spec/Machine`: a writer as an abstract machine. Its state is three lists: points in the file, points waiting, last timestamps. When
  points move to the file is an input of the machine, observed in the real run as growth of the output.
* `Spec/Assumptions`: `Schema.Named` (keys distinct, paths below 2^31 bytes) and `Schema.Indexable` (in addition no dots in
  measurement names, at most 65536 measurements per device). `Spec/Isolated`: `Schema.IndexableAt d`, the same conditions for one
  device only: no series of another device has a path that reads as one of `d`, and `d` has at most 65536 measurements without
  dots. Most theorems that read through the index need only this one.
* `Session.Within` (`Model/Session`): the capacities of the format. Fewer than 2^32 points between two flushes, fewer than 2^32 bytes
  added by a call or by closing, a file below 2^64 bytes.
* `Spec/Stats`, `Spec/Structure`, `Spec/Bloom`, `Spec/Murmur`, `Spec/Closing`, `Spec/Builder`, `Spec/Output`, `Spec/Sync`, `Spec/Interface`, `Spec/Connect`, `Spec/CApi`, `Spec/Python`, `Spec/CProgram`, `Spec/PyProgram`, `Spec/PyMemory`: what
  the other properties need. `Spec/Murmur` follows the published MurmurHash3 x64 128 algorithm, not the crate's code.

The main argument is a refinement: `Proofs/Writer` shows that the modelled writer simulates the abstract machine (`Sim`), with the
file content described by chunk groups (`FileRep`). `Proofs/Layout`, `Proofs/Close` and `Proofs/Coarse` describe the closed
file; `Proofs/Read`, `Proofs/ReadData` and `Proofs/Local` run the specification reader on it.

## 4. Plan per property

"False" means that the code violates the property as stated. Then the negation is proved with a concrete witness (or, where
possible, for a whole class of inputs), and a theorem with suffix `_partial` proves the part that holds.

| id | what is modelled | how it is proved |
|---|---|---|
| C01 | whole writer, `readSeries` | refinement, then index round trip, with conditions on the device that is read only. False with dots in the measurement, for mixed up devices and beyond 65536 measurements: `C01_dotted_wrong`, `C01_mixed_wrong`, `C33_deep_index_wrong` |
| C02 | whole writer, `scan` | refinement, then induction over chunk groups; every schema |
| C03 | `write` | decision table `Answer`, proved total and deterministic; invariant ties the state to the history |
| C04 | `write` | bisimulation up to entries of the timestamp map that cannot be observed |
| C05 | `write_many` | induction over the points. Atomicity is false: `C05_kept_wrong` and `C05_lost_wrong` (every history of a certain kind, by an invariant of the abstract writer), `C05_not_atomic`, `C05_lost` |
| C06 | `write`, automatic flush | invariant within a burst. False across a flush: `C06_restart` constructs the history by a growth argument, `C06_closed_wrong` closes and reads it, `C06_any_time_wrong` is about every flush of every history |
| C07 | `utils.rs` | induction over 7-bit groups. The crate's own reader stops at 0xFF: exact condition |
| C08, C09 | `utils.rs`, strings | induction |
| C10, C11 | `time_encoder.rs` | the bit buffer refines a bit string, then induction over blocks |
| C12 | `plain.rs` | list induction |
| C13, C14 | `chunk_writer.rs` | representation invariant of a chunk, for every page policy |
| C15 | size functions, flush | sizes from C08; holds in every reached state |
| C16–C20 | `statistics.rs`, index | `update` and `merge` are homomorphisms of a reference summary. C19 false for timestamp 2^63-1 |
| C21 | `f32` statistics | as above. Exactly when: `C21_attained_partial`. False for lists of only infinities or NaN |
| C22 | `tsfile_io_writer.rs` | position invariant |
| C23 | index construction | sorted map lemmas. False with dots: `C23_dots_wrong` |
| C24 | index construction | sorted map lemmas. False for the device node: `C24_devices_wrong`, and with the reverse order for every file with two devices: `C24_reversed_wrong` |
| C25 | index construction | exact panic condition, for any schema; false whenever the paths with data have more than 256 different parts before their last dots (devices, if no measurement name has a dot) |
| C26 | Bloom filter | bit lemmas, every schema |
| C27 | Bloom filter serialisation | exact panic condition (size mod 8 in 1, 2, 3); closing aborts every program whose stored points have such a number of paths (`C27_closing_wrong`), for example 44 |
| C28 | footer | parser round trip, every schema |
| C29 | hash map order | closing is order-free up to the device nodes. False for every history with two devices: `C29_two_wrong` |
| C30, C31 | limited sink | prefix monotonicity; simulation between the limited and the unlimited run |
| C32 | limited sink | false, and for every history: no call reports the failure. For every session whose output gets full only in `close`: all results as on an unlimited output (`C32_calls_wrong`), `close` returns if the data fits (`C32_index_wrong`); every short program is such a session (`C32_short_wrong`) |
| C33 | `generate_root_node` | up to 65536 measurements. Above: the children are never written, for every such schema. For whole sessions: no series is found (`C33_session_wrong`), or the points of another device are (`C33_stray_wrong`) |
| C34 | `mlog.rs` | parser round trip for any checksum |
| C35 | `calculate_digest` | positional numeral argument |
| C36 | `sync_sender.rs` | case analysis over all server replies. Ignored statuses: witnesses, and for every transfer `C36_ignored_wrong` |
| C37 | identity file | induction over calls. False after a failed read: witness, and for every identity `C37_replaced_wrong` |
| C38 | code tables | full finite table |
| C39 | builders | induction over calls, every iteration order |
| C40 | writer | corollary of the refinement |
| C41 | memory check | invariant; the flush does happen: growth argument |
| C42 | `close` | false in every reached state: simulation across `close`; the second footer by the growth lemmas; witness |
| C43 | `write` | false in every reached state; exact condition |
| C44 | `murmur128.rs` | equality with the reference for every byte string |
| C45 | writer | corollary of C02 (every schema) and C01 |
| C46 | C interface | invariant over all programs that obey the rules. False if a passed string is freed early |
| C47 | `WriteWrapper` | induction over writes, every inner writer |
| C48 | Thrift client over bytes | case analysis over all byte strings that can come in |
| C49 | whole session | memory bound of 180 bytes per point excludes wrap-around and division by zero; closing: exact condition `Closable`, met by all programs with up to 41 series |
| C50 | writer | refinement, at every point between calls |
| C51 | `write` vs `write_all`; the writer call by call (`Model/Stream`) | both output models agree for devices that take everything. For every output that never fails, a whole program: everything before the index goes through `write_all`, so it is the same (`Proofs/Short`), closing returns, and a scan finds all points. C73: the same file if calls of 8 bytes are taken whole. False for every program on an output that takes at most 7 bytes at a time: the lengths of what arrives are added up (`endFile_short`) |
| C52 | `sync_sender.rs` | false: the name is changed before reading; for every successful transfer `C52_never_wrong` |
| C53 | Thrift client and processor over bytes | round trip of all calls. False for absent fields of `check` and for calls of 2^31 bytes |
| C54 | C interface, and what its calls do to the disk (`Model/CDisk`) | simulation: each handle follows its own session; for the disk, the part of the output that was written so far is the file, as in C94; the exception with two handles on one file |
| C55 | the whole writer once more, with checked arithmetic (encoders, statistics, counters, memory estimates, hash) | unconditional: a checked session that does not panic is the release session; exact condition for the encoders by induction over the blocks, always met by timestamps; invariants on counts and sums show that the other checks pass. False for the hash: every path of 16 bytes or more, and some shorter ones |
| C56 | statistics, doubles as bit patterns with abstract addition | invariant of update and merge: the sum is an addition tree over the values. Exact if every partial sum is a double; error bound by induction over the tree |
| C57 | chunk headers and index | from the file representation of C01 and C02 |
| C58 | `TsFileWriter::new` over a tree of directories without links (`Model/Open`) | induction over the path. Partial: a file that cannot be made is a panic |
| C59 | `PartialEq` of errors | by cases. Partial: output errors are not equal to themselves |
| C60 | Thrift client and processor against `Spec/Interface` | equality with the message of the interface, by cases over the calls |
| C61 | the readers of structures, with `skip` | induction over the fields: the reader is a fold. Partial: `check` arguments |
| C62 | `SyncSender::new`, `_connect` over the client | by cases. Partial: the status of the introduction is ignored |
| C63 | `sync` | by cases over the nine calls. Partial: five of the failures abort |
| C64 | `sync` over client, processor and a history-dependent service | simulation: the peer's answers are the service's, by induction over the calls. False for files of 2^31 bytes |
| C65 | the C functions, with the history of calls and outcomes | invariant by induction over the program: memory agrees with what the program holds, every address is returned once, every handle is a session; then case by case over the calls |
| C66 | memory estimate and its check | the estimate is at most 22 bytes per waiting point and 120 per series: a page that was closed for its size has at least 3000 points (sum over the sorted maps); with the simulation of the abstract writer, induction over the history |
| C67 | everything that is written | bounds for each part of the layout: group headers (the abstract writer counts flushes), chunks, metadata (sums over the ordered maps), index nodes (shallow and deep), Bloom filter |
| C68 | everything that is written, `scan` | the simulation keeps the chunk groups of each flush apart; the order and the lookups determine a block |
| C69 | `write_mlog`, `sync` | the log read back (C34). False for every schema that has a series: lengths of names |
| C70 | memory estimate, its check and the counters | for PLAIN series without compression the estimate is at least one byte per waiting point, so the next check is never due later than at 2^27 points (invariant over the history); false in general: induction over a history of failing `write_many` calls; false for compressed series also with successful calls: a history of about 200 million writes, followed by induction from check to check |
| C71 | everything that is written | the devices of the groups of a file repeat with each flush, so the block of a flush is what the file has gained; its length from the bounds of C67; number of flushes from C66 |
| C72 | the output cut at any byte | the parsers of the format look only at the bytes they consume (`LocalP`), so a complete piece is read in the same way whatever follows, and an incomplete one is not read; then C50, C02 and C31 |
| C73 | the writer call by call on any `std::io::Write` (`Model/Stream.lean`) | simulation: as long as the output follows the `Sink` of the simpler model call by call, both writers do the same; an output that never refuses follows a sink without limit, one that runs full follows a sink with limit |
| C74 | the same writer; the output changes its behaviour between phases | invariant over any output (`Torn`): every chunk the writer has listed is complete and at its place (a group of which a byte is missing fails the size check and is not listed), and what is in the buffers plus what is on the disk is a part of what was offered; then the index is built from the chunks that the writer believes to be there; for the calls after the trouble a second invariant (`Kept`): chunks written since plus buffer = buffer at the end of the trouble, then the points of the calls since (all those of a successful call), and a record count of zero means that no such point is still in the buffer; the count does not wrap (`run_count`) |
| C75 | the filter and its bits in the file | a bit that is set was set before or is a position of an added path; the new filter has none |
| C76 | the bytes of a file against a reference without buffers (`Spec/Reference.lean`, `Spec/ReferenceIndex.lean`) | invariants: an encoder holds exactly the reference blocks of the values written so far, a chunk writer exactly the reference pages; then the groups of the file are a function of the bursts, and the records, the nodes and the filter a function of the groups |
| C77 | two sessions and their files | the groups of the file depend only on the points of each series of each flush; the index is a function of the groups |
| C78 | the writer call by call, `flush` of the output | the groups of the file are a part that is on the disk and a rest without chunks: invariant of the flush loop; a relation that every `write` keeps is kept by `end_file` |
| C79 | `rust.py`: holders of strings, schema and writer objects, dropped references, over the model of the C interface | invariant: the strings of a live holder are there and belong to it alone, every open writer borrows only from the holder of its schema object, and equals the Rust writer after its points; the objects as told by the history; the disk (`Model/PyDisk`) as in C54 |
| C80 | the same | from C79 |
| C81 | whole sessions, conditions on the inputs only (`Spec/Orderly.lean`) | the abstract machine accepts every call of an orderly history whenever it flushes (induction over the history); then C49, C67, C71 and C01; for ten billion points induction over the beginnings of the history, since the bound on waiting points needs successful calls |
| C82 | `benchmark.rs`, `benchmark2.rs`, quickstart, the program in `rust.py` (`Model/Programs.lean`) | the histories of the programs are orderly (C81); for the Python program no step has a reason to raise or abort (C79); a map with two keys is iterated in one of two orders; false of the quickstart, from C66 |
| C83 | whole sessions and whole transfers over the wire; a receiver that keeps files (`Spec/Receiver.lean`) | C81, C64, C34 put together; the nine calls at the receiver by computation. False: the file that is read has another name (C52) |
| C84 | the C functions, with the history of calls and outcomes | C65 leaves only reasons that the conditions exclude: what was written through a handle is orderly (induction over the calls; every address is returned once), then C81 and C54, also on the disk |
| C85 | the Python classes, with the history of steps and outcomes | as C84, from C79: what a writer object took is orderly (induction over the steps), then C81; on the disk with C79 |
| C86 | the Python classes and the tables of the library's memory | invariant over the steps: addresses are handed out once, so freeing removes one entry; every string belongs to a holder of an object that something refers to |
| C87 | a reader that skips by Bloom filter and statistics (`Spec/Query`) against the closed file | page by page and chunk by chunk against the reader of C01; soundness of the statistics from C17, C18, C21, and of the filter from C26 |
| C88 | a reader that takes aggregates from the statistics (`Spec/Aggregate`) | the same induction for any aggregate that joins; instances from C16, C17, C18, C20 |
| C89 | the TS_2DIFF encoder and whole sessions; steady numbers in `Spec/Steady` | the excesses over the least difference have at most `k` digits; the bound of C67 with another cost for each chunk |
| C90 | `process`, `unread` and the readers of the arguments | the field loop without the field; names one by one; the exception by a witness |
| C91 | the same reader with points and FLOAT values | the induction of C88 for results related to the points instead of equal to a function of them; instances from C19 and C21; that first values are wrong for every series with all points at the last time, from C19_zero_wrong, and extremes for every series without a number below infinity, from C21_attained_partial |
| C92 | a reader that searches by bisection (`Spec/Lookup`) on the file of a session | bisection among sorted names by induction on the number of comparisons; conversely names that are all found are sorted; the parts of a leaf node by induction; the exception for any two devices |
| C93 | every beginning of the file of a session, and of the output of a writer that is not closed; the readers of `Spec/Reader` | a successful scan stays the same if bytes are added, or if bytes behind the end marker are taken away (induction on the items); the exception with values whose bytes are the end of a file |
| C94 | the system calls of any number of writers on one file system, in any order (`Model/Several`); the calls of one writer are those of `Model/Stream` | induction on the schedule, with the part of the output that was written so far as invariant; the exception with two writers on one file and two schedules |
| C95 | the system calls of C94 on a file whose blocks reach the medium in any order (`Model/Power`) | what was synchronised stays at the front of what is left (induction over the system calls), then C72; the exceptions from the system calls of every session, and by evaluation for one file and one missing block |
| C96 | schedules as lists of calls with the number of their producer (`Spec/Producers`); the writer of C01 to C03 | the abstract machine agrees, about the series of each producer, with a machine that only sees the calls of this producer (induction over the schedule); then C66 (no flush), C77 (same file), C81 (orderly); the exception from C70 (a flush must happen) |
| C97 | a list of calls of `sync` on one sender, each with the file system of its time (`Model/Transfers`); what a receiver got as a relation that may drop failed calls (`Spec/Transfers`) | what one transfer adds to the files of a receiver, by cases over its end and the lost calls (from C36), then induction over the transfers; over the wire with C64's lemmas. Aborts: general theorem |
| C98 | the bytes of a connection, followed from call to call by a relation (`Model/Conversation`): exact where a whole message or a wrong head was read, any end of the bytes where reading stops elsewhere | induction over the calls with the lemmas of C60; behind a stray answer the bytes of its body are computed and read as a head. Transfers: the four calls, then `transfers` (C97) |
| C99 | no model of its own: two sessions with the same calls and different schemas (`Spec/Unused`) | relation between the two writers (`Proofs/Unused`): equal for what the calls name, nothing written elsewhere; so the memory estimates are equal (sums over the maps) and both flush at the same calls (induction). The groups of a flush, written from the points alone (C76), do not depend on series without points. An unused device is in every block (C68), so the files differ |
| C100 | reader `Spec/Until` (stops at the end of the range) | what it finds in every file (`C100_finds`, from the statistics theorem C17); right exactly if the stored times never decrease (`C100_exactly`); false after a restart of the times (`C100_lost_wrong`) |

No property is outside the model; what is abstracted is said in section 6.

## 5. Trusted base

* Lean 4.33.0's kernel.
* The three standard axioms `propext`, `Classical.choice`, `Quot.sound`. No axioms are added. Which theorem depends on which:

<!-- axioms:begin (generated by tools/gen_axioms.py) -->
* `Classical.choice`, `Quot.sound`, `propext` (304 theorems): `C01_accepted_read_back_partial`, `C01_device_accepted_partial`, `C01_device_partial`, `C01_dots_wrong`, `C01_dotted_wrong`, `C01_hundred_million_partial`, `C01_index_read_back_partial`, `C01_mixed_wrong`, `C01_snappy_partial`, `C01_ten_billion_partial`, `C02_scan`, `C02_scan_accepted`, `C02_snappy`, `C03_waiting`, `C03_write_decision`, `C05_kept_wrong`, `C05_lost`, `C05_lost_wrong`, `C05_not_atomic`, `C05_ok_scanned_partial`, `C05_ok_stored_partial`, `C05_same_as_writes_partial`, `C06_any_time_wrong`, `C06_bursts_partial`, `C06_bursts_scanned_partial`, `C06_closed_wrong`, `C06_increasing_partial`, `C06_restart`, `C07_own_reader_partial`, `C07_varint_round_trip`, `C08_varint_sizes`, `C09_signed_and_strings`, `C100_exactly`, `C100_finds`, `C100_lost_wrong`, `C100_orderly_partial`, `C100_short_partial`, `C10_ts2diff_long`, `C11_ts2diff_int`, `C12_plain`, `C13_chunk`, `C13_marker`, `C13_policy_invisible`, `C13_policy_scan`, `C14_full_pages`, `C14_page_points`, `C15_self_check`, `C16_count`, `C16_present`, `C17_time_range`, `C18_int_min_max`, `C19_first_last_partial`, `C19_first_wrong`, `C19_zero_wrong`, `C20_int_sum`, `C21_attained_partial`, `C21_float_min_max_partial`, `C21_infinity_wrong`, `C21_nan_wrong`, `C22_offsets`, `C23_device_partial`, `C23_dots_wrong`, `C23_dotted_wrong`, `C23_index_partial`, `C24_device_partial`, `C24_devices_wrong`, `C24_reversed_wrong`, `C24_sorted_partial`, `C25_devices_partial`, `C25_dotted_wrong`, `C25_too_many_devices`, `C25_wide_wrong`, `C26_bloom`, `C27_closing_wrong`, `C27_few_partial`, `C27_serialise_fails`, `C27_serialise_partial`, `C28_footer`, `C29_order_partial`, `C29_order_wrong`, `C29_two_wrong`, `C31_full_disk_abort`, `C31_full_disk_close`, `C32_calls_wrong`, `C32_index_wrong`, `C32_short_wrong`, `C32_silent_wrong`, `C33_deep_index_wrong`, `C33_device_partial`, `C33_found_partial`, `C33_session_wrong`, `C33_stray_wrong`, `C34_history`, `C34_schema`, `C35_canonical`, `C35_injective`, `C36_confirmed`, `C36_data_digest_wrong`, `C36_error_stops`, `C36_ignored_wrong`, `C36_order_partial`, `C36_reason`, `C36_status_wrong`, `C37_truncated`, `C37_wrong`, `C39_device`, `C39_schema`, `C41_all_flushed`, `C41_bounded`, `C41_flush_happens`, `C42_closed_writer_accepts`, `C42_second_close`, `C42_still_accepts`, `C43_error_partial`, `C43_wrong_type_aborts`, `C44_murmur`, `C45_scan_independent`, `C45_series_independent`, `C46_string_wrong`, `C49_calls`, `C49_forty_one_partial`, `C49_session_partial`, `C49_small_partial`, `C50_recoverable`, `C50_recoverable_points`, `C51_data_partial`, `C51_file_wrong`, `C51_seven_wrong`, `C51_short_writes_wrong`, `C52_content_partial`, `C52_never_wrong`, `C52_wrong_file`, `C54_on_disk`, `C54_same_file_wrong`, `C55_calls_partial`, `C55_close_partial`, `C55_close_wrong`, `C55_int_partial`, `C55_long_partial`, `C55_same_partial`, `C55_small_values_partial`, `C55_times`, `C56_added_up`, `C56_float_error`, `C56_float_exact`, `C56_long_error`, `C56_long_exact`, `C56_nearest_wrong`, `C57_chunks`, `C57_index`, `C58_plain`, `C58_refused`, `C58_reported`, `C62_connected_partial`, `C62_errors`, `C62_refused_wrong`, `C63_ends_partial`, `C63_unreadable_wrong`, `C64_large_wrong`, `C64_numbered`, `C64_transfer_partial`, `C64_wire`, `C66_not_early`, `C66_rare`, `C66_short`, `C67_hundred_million`, `C67_size`, `C67_within`, `C68_blocks`, `C68_empty_groups`, `C69_created_partial`, `C69_names_wrong`, `C70_compressed_wrong`, `C70_memory_wrong`, `C70_waiting_partial`, `C71_call`, `C71_closing`, `C71_ten_billion`, `C71_within`, `C72_accepted`, `C72_closed`, `C72_cut`, `C72_during_call`, `C72_full_disk`, `C72_no_invention`, `C72_no_loss`, `C73_file`, `C73_limited`, `C73_no_room`, `C74_partial`, `C74_recovered_partial`, `C74_stale_wrong`, `C75_empty`, `C75_exact`, `C75_size`, `C76_data`, `C76_file`, `C76_pages`, `C77_same_file`, `C77_short`, `C78_between`, `C78_close_wrong`, `C78_closed_partial`, `C78_during_call`, `C79_aborts`, `C79_completes`, `C79_file`, `C79_no_ub`, `C79_on_disk`, `C79_raises`, `C80_small_partial`, `C80_time_wrong`, `C81_completes`, `C81_read`, `C81_scan`, `C81_small`, `C81_ten_billion`, `C82_benchmark`, `C82_benchmark2`, `C82_python`, `C82_python_main`, `C82_quickstart_partial`, `C82_quickstart_wrong`, `C83_alone_wrong`, `C83_arrives_partial`, `C84_on_disk`, `C84_orderly`, `C85_on_disk`, `C85_orderly`, `C86_counts`, `C86_strings`, `C87_accepted`, `C87_query`, `C88_count`, `C88_sum`, `C88_times`, `C88_values`, `C89_file`, `C89_int`, `C89_long`, `C91_extremes_wrong`, `C91_first_partial`, `C91_first_wrong`, `C91_float_wrong`, `C91_floats_partial`, `C91_last`, `C91_zero_wrong`, `C92_exactly`, `C92_lost_wrong`, `C92_one_device_partial`, `C92_short`, `C92_sorted_partial`, `C93_footer_wrong`, `C93_open`, `C93_scan`, `C94_any_time_partial`, `C94_calls`, `C94_overlaid_wrong`, `C94_same_wrong`, `C94_together_partial`, `C95_invented_wrong`, `C95_lost_wrong`, `C95_so_far_partial`, `C95_synced_partial`, `C96_answers_partial`, `C96_file_partial`, `C96_long_wrong`, `C96_orderly_partial`, `C96_series_wrong`, `C96_shared_wrong`, `C97_again`, `C97_complete_partial`, `C97_delivered`, `C97_own`, `C97_wire_partial`, `C99_device_wrong`, `C99_devices_partial`, `C99_measurements_partial`, `Thrift.C48_not_twice`, `Thrift.C48_numbers`, `Thrift.C48_reply`, `Thrift.C53_end_to_end`, `Thrift.C53_large_wrong`, `Thrift.C53_missing_field_wrong`, `Thrift.C53_unchanged_partial`, `Thrift.C60_answer`, `Thrift.C60_request`, `Thrift.C60_understood`, `Thrift.C61_call_partial`, `Thrift.C61_check_wrong`, `Thrift.C61_confirm`, `Thrift.C61_incomplete`, `Thrift.C61_reply`, `Thrift.C90_left_wrong`, `Thrift.C90_missing`, `Thrift.C90_next_partial`, `Thrift.C90_no_text`, `Thrift.C90_told`, `Thrift.C90_unknown`, `Thrift.C98_in_step_partial`, `Thrift.C98_kind_wrong`, `Thrift.C98_retry_wrong`, `Thrift.C98_stray_status_wrong`, `Thrift.C98_stray_wrong`.
* `Quot.sound`, `propext` (29 theorems): `C04_rejected_no_trace`, `C04_session`, `C05_like_writes_partial`, `C07_own_reader_wrong`, `C30_append_only`, `C30_crash_prefix`, `C31_full_disk`, `C32_create_partial`, `C32_never_reported`, `C37_replaced_wrong`, `C37_stable_partial`, `C39_wf`, `C40_empty_close`, `C46_all_calls`, `C46_handles_partial`, `C47_write_all`, `C51_short_writes_partial`, `C51_write_all`, `C54_file_of_session`, `C55_hash_partial`, `C58_abort_keeps`, `C58_dot`, `C58_open_partial`, `C58_opened`, `C58_place`, `C65_aborts`, `C65_completes`, `C68_bursts`, `C93_footer_partial`.
* `propext` (8 theorems): `C03_answer_unique`, `C38_codes`, `C47_position`, `C58_wrong`, `C59_compare_partial`, `C59_wrong`, `C63_first_call_wrong`, `C97_abort_wrong`.
* no axioms (2 theorems): `C35_zero`, `C39_simple`.
<!-- axioms:end -->

* The reading of the Rust code that the model encodes. `Tests/Golden.lean` replays the byte arrays of the repository's unit tests on the
  model; the kernel evaluates them, but they are tests.
* The specifications, and the English statements.
* The hypotheses on the environment (`EnvOk`), on schemas (`Named`, `Indexable`) and on sizes (`Within`).

## 6. What is modelled and what is not

| file | modelled | not modelled |
|---|---|---|
| `writer/utils.rs` | all functions | |
| `writer/encoding/*` | all encoders | the trait object dispatch |
| `writer/statistics.rs` | `new`, `update`, `merge`, `serialize`, sizes | `Debug` output |
| `writer/chunk_writer.rs` | pages, chunks, headers, memory estimate | `Display` |
| `writer/group_writer.rs` | all | |
| `writer/tsfile_io_writer.rs` | all; `flush` of the inner writer in `Model/Stream` | errors of `flush` (the code drops them) |
| `writer/tsfile_writer.rs` | `new`, `new_from_writer`, `write`, `write_many`, memory check, flush, `close`; several writers on one file system (`Model/Several`); loss of power (`Model/Power`) | links in the file system |
| `writer/mod.rs` | serialisation, index, Bloom filter, `WriteWrapper`, code tables | `Display` |
| `writer/murmur128.rs` | all | |
| `writer/schema.rs` | the builders | `Default` instances (same as `new`) |
| `writer/errors.rs` | the kinds of errors, `PartialEq` | the payload of `IoError` |
| `writer/compression.rs` | codes | |
| `writer/ts_file_config.rs` | the default values; the fields are private to the crate, so every writer of a user has these | |
| `sync/mlog.rs` | all | |
| `sync/sync_sender.rs` | all; interfaces, TCP and files are inputs of the model | the crates `pnet`, `uuid`, TCP itself |
| `sync/sync.rs` | client, processor, structs; of the `thrift` crate the binary protocol and the framed transports (`Model/Wire.lean`) | getters; sockets |
| `sync/_main.rs` | nothing: it is not part of the crate | |
| `tsfile-writer-c/src/lib.rs` | all functions, memory, handles, the files on the disk (`Model/CDisk`, `Model/PyDisk`) | the C compiler's view |
| `tsfile-writer-c/rust.py` | all classes; references that go away; the program at the end | `cffi` and CPython themselves (`Model/Python` says what they are taken to do); strings without a UTF-8 form |
| `examples/src/bin/*`, quickstart in `lib.rs` | the schemas and the calls | measurement of time, output to the terminal |
| `tsfile-writer-c/main.py` | nothing: it calls functions that the library does not have | |

Further simplifications, each said in the comment of the definition: output errors inside a sequence of `write_all` calls are
treated once per group of bytes in `Model/Writer` (`Model/Stream` makes every call; C73 shows that both agree); error payloads of the operating system are dropped; a `HashMap` with distinct keys is a list.

The model describes a release build. `Model/Checked` and `Model/CheckedWriter` model the writer of a build with overflow checks (C55): additions and subtractions of
the delta encoders, counts and sums of the statistics, record counters, memory estimates, and the hash. Additions of positions and
buffer lengths (`u64`, `usize`) are not checked there: they cannot overflow before memory is exhausted.

## 7. Where the code disagrees with the properties

Found while proving. Each has a theorem.

1. Dots in measurement names: the index lists the series under a device that does not exist; the points cannot be read through the
   index. `C01_dots_wrong`, `C23_dots_wrong`. Two devices can get mixed up this way: `C01_mixed_wrong`.
2. More than 65536 measurements with data in a device: the inner index nodes point behind the records of the device, not at its leaves, which are never written. `C33_deep_index_wrong`. In a file with this device only, they point to themselves and no series is found: `C33_session_wrong`. In a file with more devices they can point at the node of another device, and a reader that follows them gets the points of that device: `C33_stray_wrong`.
3. More than 256 devices with data: `close` always panics and the file has no footer. `C25_wide_wrong`. With dots in measurement
   names this happens for a single device. `C25_dotted_wrong`.
4. 44 series (and every number of bits that leaves remainder 1, 2, 3 modulo 8): `close` panics in the Bloom filter.
   `C27_serialise_fails`.
5. A path whose hash is -2^31 makes `close` panic: condition `HashesOk` of `C49_session_partial`.
6. A value of the wrong type panics instead of returning an error. `C43_wrong_type_aborts`. The same for FLOAT with TS_2DIFF.
7. `write_many` that fails in the middle keeps the earlier points, and they may be lost. `C05_not_atomic`, `C05_lost`.
8. After an automatic flush the order check starts again: duplicates and decreasing timestamps reach the file. `C06_restart`.
9. A closed writer accepts points; a second `close` appends a second footer. `C42_still_accepts`, `C42_second_close`,
   `C42_closed_writer_accepts`.
10. Output errors after creation are never reported. `C32_never_reported`, `C32_silent_wrong`; for every session whose
    output gets full in `close`: `C32_calls_wrong`, `C32_index_wrong`, `C32_short_wrong`.
11. Index nodes are written with `write`, not `write_all`: a short write garbles the file. `C51_short_writes_wrong`,
    `C51_file_wrong` (the footer cannot be read), `C51_seven_wrong` (every program). The data before the index is complete (`C51_data_partial`).
12. The order of the devices in the index follows the hash map: not sorted, and different in every run. `C24_devices_wrong`,
    `C29_order_wrong`.
13. `read_var_u32` treats 0xFF as the last byte. `C07_own_reader_wrong`.
14. Statistics: first value wrong if the only timestamp is 2^63-1; minimum and maximum wrong if all values are infinite or NaN.
    `C19_first_wrong`, for every such series `C19_zero_wrong`; `C21_infinity_wrong`, `C21_nan_wrong`.
15. Sync: the file sent is `0_0_` + name, not the file named. `C52_wrong_file`. Every status but one is ignored.
    `C36_status_wrong`, `C36_data_digest_wrong`. A file that was just written is never transferred. `C83_alone_wrong`. The path in the metadata log is storage group + device, so it is
    never the name in the data file. `C69_names_wrong`.
16. Identity: a failed read replaces it, a partial write truncates it. `C37_wrong`, `C37_truncated`.
17. Thrift: absent optional fields of a check arrive as empty ones; the pattern `neg1` in `SyncServiceCheckArgs` is a binding that
    matches every field id; field types are not checked. `C53_missing_field_wrong`.
18. C interface: `file_writer_write_int32` keeps the caller's pointer; freeing the string before `close` is undefined.
    `C46_string_wrong`. A null schema is undefined (rule in `Spec/CApi`).
19. Builds with overflow checks: the body loop of the hash (`murmur128.rs:57-74`) multiplies with plain `*=`, so `close` panics for
    every path of 16 bytes or more that starts with a printable character. `C55_close_wrong`. The TS_2DIFF encoders panic where
    differences overflow. `C55_long_partial`, `C55_int_partial`.
20. `TsFileWriter::new` panics if the file cannot be made. `C58_plain`, `C58_wrong`.
21. An output error is not equal to itself. `C59_wrong`.
22. The arguments of `check` with an additional field are misunderstood by the server (the same `neg1`): a number there is read as the
    information about the sender, the handler gets empty information, and the connection is out of step. `C61_check_wrong`.
23. A sender that the server refuses is connected: the status of the introduction is ignored. `C62_refused_wrong`.
24. `sync` panics if the first call fails or the data file cannot be read, among others. `C63_first_call_wrong`,
    `C63_unreadable_wrong`.
25. Devices without data get a chunk group header in every flush. `C68_empty_groups`.
26. The points that a failing `write_many` keeps are not counted: they cause no check and no flush, so memory grows without
    bound. `C70_memory_wrong`.
27. `write_to_file_writer` clears everything but `size_without_statistics` (`chunk_writer.rs:208-221`). After a flush that failed the
    chunk writer is used again, and when it fills a second page the statistics of the first are inserted at a wrong place, so the
    chunk cannot be read. `C74_stale_wrong`.
28. Each memory check places the next one in proportion to the memory used so far (`tsfile_writer.rs:181-192`). After points that
    compress well it is hundreds of millions of points away, whatever comes then. `C70_compressed_wrong`.
29. `close` does not flush the output (`tsfile_io_writer.rs:134-192` has no `flush`; only `end_chunk_group` does): with a buffering
    output the index and the footer may be in the buffer when `close` returns. `C78_close_wrong`. (`TsFileWriter::new` opens a `File`,
    which has no buffer; other outputs can be given inside the crate only, `new_from_writer` is `pub(crate)`.)
30. `rust.py` declares the timestamp of `file_writer_write_int32` as `int` (line 17; it is `i64` in `lib.rs`), so Python programs cannot
    write a timestamp of 2^31 or more. `C80_time_wrong`.
31. The quickstart of the documentation (`lib.rs:16-82`) does not call `close`, and there is no `Drop`: its file has only the seven
    bytes of the head. `C82_quickstart_wrong`.
32. The Python classes have no `__del__`: an object that is dropped without `free` or `close` keeps its memory in the library for ever
    (`C86_counts`), and the file of a writer object dropped this way is never completed.
33. A data file is sent in one call (`sync_sender.rs:161-165`). The lengths of strings and frames are `i32`, cast without a check, so a
    file of 2 GiB or more is never received. `C53_large_wrong`, `C64_large_wrong`.
34. The processor does not skip the arguments of a message with an unknown name (`sync/sync.rs:838-846`, and `handle_process_result`
    returns `Ok`): the next request on the connection is read from the wrong place. `C90_left_wrong`.
35. A consequence of the order of the devices in the root node (`writer/mod.rs:505-560`, a `HashMap`): a reader that searches by bisection
    does not find all devices of a file with several devices, unless the order happens to be ascending. `C92_exactly`, `C92_lost_wrong`.
36. Neither the format nor the writer protects data against being read as the end of a file. A file that was cut off behind values (or a
    name) that read as an index offset, a length and `TsFile` is opened without an error, and its points are not found. `C93_footer_wrong`.
37. `TsFileWriter::new` (`tsfile_writer.rs:292`) opens a file without a lock and empties it, also if another writer is working on it. Both
    writers go on at positions of their own; every call returns `Ok`, and the file is garbled. `C94_same_wrong`, for any two writers `C94_overlaid_wrong`; for the C interface `C54_same_file_wrong`.
38. No `fsync`: `TsFileWriter::close` (`tsfile_writer.rs:123-127`) returns before anything is certain to be on the medium, and pages have no
    checksum, so a file that lost a block is read without an error. `C95_lost_wrong`, `C95_invented_wrong`.
39. The last timestamps of all series are forgotten at an automatic flush (item 8), and a flush happens when the
    points of all series together take too much memory. So whether a late point is refused depends on what others write. `C96_long_wrong`.
40. The client reads only the head of a message that is not the answer to its call (`sync/sync.rs:251-264`: `verify_...` with `?`), and
    leaves its body to the next call. The connection is out of step from then on. `C98_stray_wrong`, `C98_stray_status_wrong`, `C98_retry_wrong`.
41. Every flush writes a chunk group, without chunks, for each device of the schema that got no points, so the file is not the
    same as with a schema that does not have the device. Measurements without points leave no trace. `C99_device_wrong`.
42. A reader that stops at the end of the range of times misses points whose times began again after a flush. `C100_lost_wrong`.
