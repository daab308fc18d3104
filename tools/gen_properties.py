#!/usr/bin/env python3
"""Writes /verif/properties.jsonl (one JSON object per line)."""
import json, os
W = "tsfile-writer/src/writer/"
S = "tsfile-writer/src/sync/"
P = []
def p(id, title, statement, quantifier, why, anchors):
    P.append(dict(id=id, title=title, statement=statement, quantifier=quantifier,
                  why_tests_cant=why, anchors=anchors))

p("C01", "Written points are read back through the file index",
  "After any history of write / write_many calls followed by close, a TsFile v3 reader that starts from the file's tail (magic, footer length, device index, measurement index, timeseries metadata, chunk offsets) and asks for (device, measurement) gets exactly the points stored for that series: bit-identical timestamps and values, in the order they were accepted, nothing lost, duplicated, altered or moved to another series.",
  "all schemas, all interleavings of write/write_many over all devices and measurements, all i64 timestamps, all i32/i64/f32 values, all encodings and compressions, every way pages are split and every automatic flush",
  "the number of histories, page splits and flush points is unbounded; the existing tests compare a handful of literal files",
  [W+"tsfile_writer.rs: TsFileWriter::{write,write_many,close}", W+"tsfile_io_writer.rs: TsFileIoWriter::end_file", W+"mod.rs: MetadataIndexNode::construct_metadata_index"])
p("C02", "Written points are read back by a front-to-back scan",
  "The data part of the file parses, from the first byte, as magic, version, then chunk groups each holding complete chunks; concatenating the chunks of one series in file order gives exactly the stored points of that series, and the scan stops exactly at the index-section marker.",
  "all schemas and histories as in C01",
  "sequential recovery must work for every layout the writer can produce, not the tested ones",
  [W+"tsfile_io_writer.rs: start_chunk_group, start_flush_chunk", W+"chunk_writer.rs: ChunkHeader::serialize"])
p("C03", "write() accepts exactly the in-order points of known series",
  "write(d, m, t, v) returns an error iff d is not in the schema, or t is not greater than the last timestamp accepted for (d, m) since the last flush (or than -1 if there is none), or m is not a measurement of d; the error kind is determined by which of these holds first; otherwise, when v has the series' type and the encoding supports it, it returns Ok.",
  "all writer states reachable by any history, all arguments",
  "the decision depends on the whole preceding history",
  [W+"group_writer.rs: GroupWriter::write, check_is_history_data", W+"tsfile_writer.rs: TsFileWriter::write"])
p("C04", "A rejected write leaves no trace",
  "If write returns an error, then the final file, and the outcome of every later call, are the same as if that call had never been made.",
  "all histories before and after the rejected call, all rejected calls",
  "an observational-equivalence claim over all continuations",
  [W+"group_writer.rs: GroupWriter::write", W+"tsfile_writer.rs: TsFileWriter::write"])
p("C05", "write_many stores all of its points or reports which",
  "write_many behaves like the corresponding write calls in order; when it returns Ok every point was stored. When it returns an error none of its points should be in the file.",
  "all histories, all lists of data points",
  "atomicity has to be checked for a failure at every position of every list",
  [W+"group_writer.rs: GroupWriter::write_many", W+"tsfile_writer.rs: TsFileWriter::write_many"])
p("C06", "Timestamps of a series are strictly increasing in the file",
  "For every series the timestamps found in the closed file are non-negative and strictly increasing.",
  "all histories, including those long enough to trigger automatic flushes",
  "automatic flushes need more than a hundred megabytes of buffered data, far beyond the tests",
  [W+"group_writer.rs: check_is_history_data", W+"tsfile_writer.rs: reset, flush_all_chunk_groups"])
p("C07", "Unsigned varint round trip",
  "A standard LEB128 reader recovers every u32 from the bytes the writer emits, whatever follows them; 1 to 5 bytes are emitted; the crate's own reader recovers the number too.",
  "all u32 values, all following bytes", "2^32 values times arbitrary suffixes",
  [W+"utils.rs: write_var_u32, read_var_u32"])
p("C08", "Varint size functions agree with the bytes emitted",
  "size_var_u32 / size_var_i32 return exactly the number of bytes the corresponding writers emit.",
  "all u32 / i32 values", "2^32 values; the chunk size check depends on it",
  [W+"utils.rs: size_var_u32, size_var_i32"])
p("C09", "Signed (zigzag) varint and string round trip",
  "A zigzag LEB128 reader recovers every i32; a string written as length plus bytes is recovered for every string, whatever follows it.",
  "all i32 values, all strings shorter than 2^31 bytes, all suffixes", "unbounded strings and suffixes",
  [W+"utils.rs: write_var_i32", W+"mod.rs: write_str"])
p("C10", "TS2DIFF i64 round trip",
  "Decoding the bytes of the 64-bit delta encoder gives back exactly the sequence written, for every sequence including ones whose deltas overflow.",
  "all lists of i64 of any length, all bit widths 0..64", "all block counts, widths and bit offsets",
  [W+"encoding/time_encoder.rs: LongTs2DiffEncoder"])
p("C11", "TS2DIFF i32 round trip",
  "Decoding the bytes of the 32-bit delta encoder gives back exactly the sequence written.",
  "all lists of i32 of any length", "all block counts, widths and bit offsets",
  [W+"encoding/time_encoder.rs: IntTs2DiffEncoder"])
p("C12", "PLAIN round trip",
  "Decoding PLAIN bytes with the series' type gives back exactly the values written (INT32, INT64 and FLOAT, bit for bit).",
  "all lists of values", "unbounded lists; all NaN payloads and extreme integers",
  [W+"encoding/plain.rs: PlainEncoder"])
p("C13", "Page boundaries are invisible",
  "However the points of a chunk are split into pages (any page size heuristic), the chunk decodes to the same points; a chunk with one page carries no page statistics, a chunk with more carries them on every page, and the marker byte tells which.",
  "all lists of points, all page split policies", "the split depends on a floating point heuristic and on sizes",
  [W+"chunk_writer.rs: ChunkWriter::write_page_to_buffer, check_page_size_and_may_open_new_page, ChunkHeader::serialize"])
p("C14", "No page is too large or too small",
  "Every page in the file has at least one and at most 1048577 points, and every page but the last of a chunk has at least 3000.",
  "all histories, all page size heuristics", "needs millions of points and every heuristic",
  [W+"chunk_writer.rs: check_page_size_and_may_open_new_page"])
p("C15", "The flush self check never fires on a working output",
  "When the output accepts all bytes, flushing a device writes exactly the number of bytes computed in advance, so the 'Bytes written are not as expected!' error is never produced.",
  "all reachable writer states", "depends on all names, sizes and page counts",
  [W+"tsfile_writer.rs: flush_all_chunk_groups", W+"chunk_writer.rs: get_serialized_chunk_size"])
p("C16", "Stored statistics: point count",
  "The point count in the timeseries metadata of a series equals the number of its stored points; chunk and page counts equal the points of the chunk and page.",
  "all histories with fewer than 2^32 points", "sums over unbounded histories",
  [W+"statistics.rs: update, merge", W+"tsfile_io_writer.rs: flush_metadata_index"])
p("C17", "Stored statistics: time range",
  "Start and end time in the statistics are the smallest and largest stored timestamp.",
  "all non-empty point lists, any partition into pages and chunks", "universally quantified",
  [W+"statistics.rs: update, merge"])
p("C18", "Stored statistics: integer minimum and maximum",
  "For INT32 and INT64 series the minimum and maximum in the statistics are those of the stored values.",
  "all non-empty point lists, any partition into pages and chunks", "universally quantified",
  [W+"statistics.rs: update, merge"])
p("C19", "Stored statistics: first and last value",
  "First and last value are the values of the points with the smallest and largest timestamp.",
  "all non-empty point lists, any partition", "fails only for one timestamp out of 2^64",
  [W+"statistics.rs: update, merge"])
p("C20", "Stored statistics: sum of an INT32 series",
  "The sum in the statistics of an INT32 series is the exact sum of its stored values.",
  "all point lists shorter than 2^32, any partition", "overflow freedom over unbounded lists",
  [W+"statistics.rs: update, merge"])
p("C21", "Stored statistics: float minimum and maximum",
  "For FLOAT series the minimum and maximum in the statistics are attained by stored values and bound all of them.",
  "all non-empty float lists", "2^32 bit patterns per value, including infinities and NaN",
  [W+"statistics.rs: new, update"])
p("C22", "Chunk offsets point at chunk headers",
  "Every chunk offset stored in the index is the byte position of the header of a chunk of that very series.",
  "all histories", "all layouts",
  [W+"tsfile_io_writer.rs: start_flush_chunk, end_current_chunk"])
p("C23", "Every series with data is indexed exactly once, under its own device",
  "The index lists device d iff d has data, and under d lists measurement m exactly once iff (d, m) has stored points.",
  "all schemas and histories", "depends on the names used",
  [W+"tsfile_io_writer.rs: end_file, flush_metadata_index", W+"mod.rs: construct_metadata_index"])
p("C24", "Index entries are sorted so binary search works",
  "Names in every index node are strictly ascending.",
  "all schemas and histories, all hash map iteration orders", "iteration order differs from run to run",
  [W+"mod.rs: construct_metadata_index"])
p("C25", "close() completes for every number of devices",
  "close() writes a complete footer whatever the number of devices with data.",
  "all schemas and histories", "tests use one or two devices",
  [W+"mod.rs: construct_metadata_index"])
p("C26", "Bloom filter has no false negatives",
  "The Bloom filter stored in the file reports 'may contain' for every series path that was indexed.",
  "all sets of paths", "all hash collisions and bit positions",
  [W+"mod.rs: BloomFilter", W+"murmur128.rs: Murmur128"])
p("C27", "Bloom filter serialisation never fails",
  "Serialising the Bloom filter succeeds for every number of series, and the bytes describe exactly the bits set.",
  "all numbers of series, all bit sets", "tests have at most a few series",
  [W+"mod.rs: BloomFilter::serialize_bits"])
p("C28", "The footer can be located from the tail",
  "The file ends with the magic string, preceded by the 4-byte length of the metadata, which starts exactly that many bytes earlier; the recorded metadata offset is the position of the index-section marker.",
  "all histories", "all sizes",
  [W+"tsfile_io_writer.rs: end_file"])
p("C29", "The produced file is a function of schema and history",
  "Running the same history with the same schema gives byte-identical files, independent of hash map iteration order.",
  "all schemas and histories, all iteration orders", "iteration order is random per process",
  [W+"tsfile_writer.rs: TsFileWriter::new_from_writer", W+"mod.rs: construct_metadata_index"])
p("C30", "The file is append-only",
  "Bytes that were handed to the output are never changed: the content at any moment is a prefix of the content at every later moment, so a crash leaves a prefix of the uninterrupted file.",
  "all histories, all crash points", "every crash point of every history",
  [W+"mod.rs: WriteWrapper", W+"tsfile_io_writer.rs: TsFileIoWriter"])
p("C31", "A full disk truncates but never garbles",
  "If the output stops accepting bytes after n bytes, the file holds exactly the first n bytes of the file an unlimited output would have got, whatever calls follow, as long as no call aborts the program.",
  "all histories, all n", "every fault point of every history",
  [W+"tsfile_writer.rs: flush_all_chunk_groups", W+"tsfile_io_writer.rs: TsFileIoWriter"])
p("C32", "Output errors are reported to the caller",
  "If the output fails, some call returns an error.",
  "all histories, all fault points", "every fault point",
  [W+"tsfile_writer.rs: close, write", W+"tsfile_io_writer.rs: end_file"])
p("C33", "The index works for every number of measurements",
  "Every measurement of a device is found through the index however many measurements the device has.",
  "all schemas", "multi-level index needs more than 65536 measurements",
  [W+"mod.rs: construct_metadata_index, generate_root_node"])
p("C34", "MLog records are recovered",
  "A reader that splits the metadata log into length/payload/checksum records and decodes the plans recovers the storage group and every time series with its type, encoding and compression.",
  "all schemas, all names", "unbounded names and series",
  ["tsfile-writer/src/sync/mlog.rs: MLog", "tsfile-writer/src/sync/sync_sender.rs: write_mlog"])
p("C35", "Digest strings identify the hash",
  "Two different SHA-256 values give different digest strings, and the string is the lower case hexadecimal number without leading zeros (the empty string for the hash zero).",
  "all 32-byte hashes", "2^256 hashes",
  ["tsfile-writer/src/sync/sync_sender.rs: calculate_digest"])
p("C36", "Sync protocol order",
  "The sender never transmits the data file before the metadata log was transmitted and its digest confirmed; end_sync is only sent after everything else; a connection or status failure stops the protocol.",
  "all server behaviours (response sequences)", "all combinations of failures at every step",
  ["tsfile-writer/src/sync/sync_sender.rs: sync, _connect"])
p("C37", "The sender identity is stable",
  "Once an identity was stored, every later call returns the same identity.",
  "all call sequences and all file system contents", "all histories",
  ["tsfile-writer/src/sync/sync_sender.rs: get_or_generate_uuid"])
p("C38", "Type, encoding and compression codes round trip",
  "Converting a data type, encoding or compression to its code and back gives the same value; distinct values have distinct codes; every other code is rejected.",
  "all 256 codes", "must hold for every code, including the rejected ones",
  [W+"mod.rs: TSDataType", W+"encoding/mod.rs: TSEncoding", W+"compression.rs: CompressionType"])
p("C39", "Schema builder: last definition wins, nothing else changes",
  "The built schema maps each device to its last added group and each measurement to its last definition, and contains nothing else.",
  "all sequences of builder calls", "all sequences",
  [W+"schema.rs: TsFileSchemaBuilder, DeviceBuilder"])
p("C40", "Closing without data gives a valid empty file",
  "Closing a writer to which no point was accepted gives a complete file whose index has no devices.",
  "all schemas, all histories consisting of rejected calls only", "all schemas",
  [W+"tsfile_writer.rs: close", W+"tsfile_io_writer.rs: end_file"])
p("C41", "Automatic flush bounds memory and never fails",
  "When the memory check is due and the estimate exceeds the threshold all buffered points go to the output and the buffers are emptied; the memory check never divides by zero after a successful write.",
  "all reachable states", "all sizes",
  [W+"tsfile_writer.rs: check_memory_size_and_may_flush_chunks"])
p("C42", "A closed writer accepts nothing more",
  "After close, write is refused and a second close does not change the file.",
  "all histories", "all histories after close",
  [W+"tsfile_writer.rs: close, write"])
p("C43", "A value of the wrong type is reported as an error",
  "Writing a value whose type differs from the series' type returns an error and never aborts the program.",
  "all states, all series, all values", "all combinations in all states",
  [W+"statistics.rs: Statistics::update", W+"chunk_writer.rs: PageWriter::write"])
p("C44", "Murmur hash is the reference function and never reads out of bounds",
  "The path hash equals the MurmurHash3 x64 128 reference function (sum of the two halves, low 32 bits) for every string, and no index is out of range.",
  "all byte strings", "all lengths modulo 16 and all contents",
  [W+"murmur128.rs: Murmur128::inner_hash"])
p("C45", "Series are independent",
  "What is read back for one series depends only on the accepted points of that series, not on writes to other series.",
  "all pairs of histories with the same accepted points for the series", "all interleavings",
  [W+"tsfile_writer.rs: write"])
p("C46", "C interface handle discipline",
  "A handle returned by the constructor functions stays valid across every successful call until it is freed or closed, exactly one allocation is released by free/close, and creating a writer does not consume the schema handle.",
  "all sequences of C calls", "all call sequences",
  ["tsfile-writer-c/src/lib.rs: schema_simple, schema_free, file_writer_new, file_writer_write_int32, file_writer_close"])
p("C47", "Output position equals bytes written",
  "The position reported by the counting writer wrapper always equals the number of bytes the inner writer accepted, also with short writes and errors.",
  "all inner writers, all sequences of writes", "all fault patterns",
  [W+"mod.rs: WriteWrapper"])
p("C48", "Thrift client accepts only the matching reply",
  "A remote call returns Ok only if the reply carries the sequence number and method name of the request; sequence numbers increase by one per call.",
  "all bytes that can come in, all call histories", "all replies",
  ["tsfile-writer/src/sync/sync.rs: SyncServiceSyncClient"])
p("C49", "Well typed data never aborts the program",
  "A session (open, write and write_many calls whose values have the types of their series, close) never aborts the program.",
  "all schemas, all histories of calls that hand over at least one point of the right type each",
  "all sizes of buffers, all wrap-arounds of counters, all numbers of series",
  [W+"tsfile_writer.rs: write, write_many, close, check_memory_size_and_may_flush_chunks", "tsfile-writer/src/writer/mod.rs: BloomFilter::serialize_bits"])
p("C50", "What was flushed can be recovered at any time",
  "At any moment between two calls the output written so far consists of complete chunk groups: a scan finds exactly the points accepted up to the last flush, also if the file is never closed.",
  "all histories, all points in time between calls", "every prefix of every history is a possible crash point",
  [W+"tsfile_writer.rs: flush_all_chunk_groups", W+"tsfile_io_writer.rs: start_chunk_group, end_chunk_group"])
p("C51", "The file does not depend on how the output splits writes",
  "On an output that never fails but takes only a part of the offered bytes per write, the file is the same as on an output that takes everything.",
  "all outputs that keep the contract of std::io::Write, all files", "all ways of splitting every write",
  [W+"mod.rs: Serializable for MetadataIndexEntry, MetadataIndexNode, MetadataIndexNodeType"])
p("C52", "The file named by the caller is the one that is sent",
  "When synchronising a file succeeds, the data transmitted is the content of the file that the caller named.",
  "all file systems, all names, all server behaviours", "all contents of the file system",
  ["tsfile-writer/src/sync/sync_sender.rs: sync"])
p("C53", "Remote calls and statuses arrive unchanged",
  "The handler of the synchronisation service gets exactly the call and the arguments that the client passed, and the client returns exactly the status that the handler gave; if the handler fails, the client's call fails.",
  "all calls, all arguments, all handlers, all sequence numbers, over the bytes of the binary protocol", "arguments, handlers and histories are unbounded",
  ["tsfile-writer/src/sync/sync.rs: SyncServiceSyncClient, SyncServiceSyncProcessor, ConfirmInfo, SyncStatus"])
p("C54", "The C interface writes the same file as the Rust interface",
  "However a C program interleaves its calls on several schemas and writers, the file of a writer it closed, if no other writer of the program was opened on the same file, is the file that one Rust session produces from the same schema and the points written through that handle, in order.",
  "all sequences of C calls, and whatever is on the disk before", "all interleavings and lengths",
  ["tsfile-writer-c/src/lib.rs: schema_simple, schema_free, file_writer_new, file_writer_write_int32, file_writer_close"])
p("C55", "A build with overflow checks behaves like a release build",
  "Built with overflow checks (as cargo does by default for debug builds) the library writes the same bytes as a release build and no call aborts because an intermediate result of the encoders, of the statistics, of the counters and memory estimates or of the path filter overflows.",
  "all values, all timestamps, all schemas, all histories", "which values and paths overflow is a question about all of them",
  [W+"encoding/time_encoder.rs", W+"statistics.rs", W+"tsfile_writer.rs: write, write_many, close", W+"murmur128.rs: Murmur128", W+"mod.rs: BloomFilter, HashFunction"])
p("C56", "Stored statistics: sum of INT64 and FLOAT series",
  "The sum in the statistics of an INT64 or FLOAT page, chunk or series is the result of adding all of its values as doubles, each once and in their order; it is exact if all values are multiples of one power of two and their magnitudes add up to at most 2^53 times that power, and in any case (finite values) it is a finite number whose error is at most n * 2^-52 times the sum of the magnitudes of the n values.",
  "all histories, all values, all places with statistics", "all values and all divisions into pages and chunks",
  [W+"statistics.rs: update, merge"])
p("C57", "The file describes every series as the schema does",
  "Every chunk belongs to a series of the schema and its header states the data type, encoding and compression of the schema; every series in the index has the name and data type of the schema; all values have that type.",
  "all schemas, all histories", "all schemas and histories",
  [W+"chunk_writer.rs: ChunkHeader", W+"tsfile_io_writer.rs: start_flush_chunk, flush_metadata_index"])
p("C58", "Opening a file by name",
  "Opening a writer for a path makes the missing directories and a file that holds the header; nothing else that was on the disk changes, except that a file of this name is replaced. If the file cannot be made, an error is returned and the program goes on.",
  "all paths, all file systems without links, all permissions", "all paths and all states of the file system",
  [W+"tsfile_writer.rs: TsFileWriter::new"])
p("C59", "Errors can be compared",
  "The comparison of errors is an equivalence: every error is equal to itself, the order does not matter, and errors of different kinds or with different texts are different.",
  "all pairs of errors", "all texts",
  [W+"errors.rs: PartialEq for TsFileError"])
p("C60", "Remote calls follow the interface of the server",
  "Every call sends the message that the interface of the server prescribes: the name of the method, the numbers and types of the fields, and the next number; the service answers a request with the prescribed answer or an exception under the same name and number.",
  "all calls, all arguments, all states of the client, all handlers", "all arguments and handlers",
  ["tsfile-writer/src/sync/sync.rs: TSyncServiceSyncClient methods, write_to_out_protocol, SyncServiceSyncProcessor::process"])
p("C61", "Peers with a newer interface are understood",
  "A reply or a call may carry additional fields, in any order and of any type, also inside the structures: they are skipped and the rest is understood. A reply without a required field is an error.",
  "all calls, all sets of additional fields nested at most 64 levels deep", "all messages of newer peers",
  ["tsfile-writer/src/sync/sync.rs: read_from_in_protocol of all structures"])
p("C62", "A sender is connected only to a server that accepted it",
  "Creating a sender succeeds only if a local address and an identity are available, the connection was opened, the sender introduced itself with exactly these and its version, and the server accepted the introduction. Every error has its own cause, and an error before the introduction is sent leaves no trace outside the identity file.",
  "all network interfaces, all states of the identity file, all failures, all answers of the server", "all combinations of failures and answers",
  ["tsfile-writer/src/sync/sync_sender.rs: SyncSender::new, _connect, get_or_generate_uuid"])
p("C63", "A failing server or file is reported as an error",
  "A transfer whose call fails, whose digest is refused or whose file cannot be read returns an error to the caller; it does not abort the program, and it stops for no other reason.",
  "all servers, all file contents, all schemas", "every point of failure",
  ["tsfile-writer/src/sync/sync_sender.rs: sync"])
p("C64", "A transfer over the connection is a transfer to the service",
  "A sender connected to a server that runs this crate's processor transfers a file as if it made its calls directly at the service behind it: the service gets the introduction and exactly the calls of the transfer, in their order, and the transfer ends in the same way. All messages of a connection, also those of several transfers, are numbered consecutively, starting with the introduction. What goes over the wire in a transfer is a beginning of the introduction and the nine calls of the protocol with their own arguments, and all of them if the transfer succeeds.",
  "all services, also those whose answers depend on the calls before, all files and schemas, over the frames on the connection", "all services and histories",
  ["tsfile-writer/src/sync/sync_sender.rs: sync, _connect", "tsfile-writer/src/sync/sync.rs: client and processor"])
p("C65", "The C interface aborts for known reasons only",
  "In a C program that keeps to the rules of C46, a call aborts the process exactly if a string argument is null or not UTF-8, a code is unknown, the file cannot be created, a write gets the null handle, or the same call of the Rust interface (same schema, same points before) does not return Ok. Freeing a schema, closing the null handle and the like never abort.",
  "all C programs that keep to the rules, all calls in them with all arguments", "all programs and histories",
  ["tsfile-writer-c/src/lib.rs: schema_simple, schema_free, file_writer_new, file_writer_write_int32, file_writer_close"])
p("C66", "The writer does not flush early",
  "A call writes nothing to the output as long as the points waiting to be written, those of the call, and the series of the schema need at most 128 MB, counting 22 bytes for a point and 120 bytes for a series. So of all the points handed over, at least 6100806 (less six for each series) come between two flushes, and with a short history only the seven bytes of the file head are written before closing.",
  "all schemas, all histories of calls, all states they reach; fewer than 2^32 points between two flushes", "all histories; the estimate adds up pages, buffers and statistics of all series",
  ["tsfile-writer/src/writer/tsfile_writer.rs: check_memory_size_and_may_flush_chunks, calculate_mem_size_for_all_groups", "tsfile-writer/src/writer/chunk_writer.rs: estimate_max_series_mem_size"])
p("C67", "The size of a closed file is linear in its content",
  "With device names and series paths of at most N bytes, a closed file has at most 60 bytes, plus 22 bytes per stored point, plus N + 7 bytes per device and 4 N + 356 bytes per series for each flush, plus the Bloom filter. In particular, whether a session stays within the limits of the format can be seen from its inputs: up to a hundred million points, a thousand devices and a hundred thousand series with paths of up to 100 bytes always do.",
  "all schemas, all histories of calls; fewer than 2^32 points between two flushes", "a bound for all inputs",
  ["tsfile-writer/src/writer/tsfile_writer.rs: close", "tsfile-writer/src/writer/tsfile_io_writer.rs: end_file", "tsfile-writer/src/writer/mod.rs: MetadataIndexNode, BloomFilter", "tsfile-writer/src/writer/chunk_writer.rs: serialize"])
p("C68", "One block per flush",
  "A closed file is a sequence of blocks, one for each flush (the last one made by closing). A block has one chunk group for each device of the schema, in byte order of the names, also for devices without points. In a group there is one chunk for each series with points, in byte order, and it holds exactly the points of that series that were handed over since the flush before, in order.",
  "all schemas, all histories of calls (within the capacities of the format)", "all inputs and all moments of flushing",
  [W+"tsfile_writer.rs: flush_all_chunk_groups", W+"group_writer.rs: flush_to_filewriter", W+"tsfile_io_writer.rs: start_chunk_group, start_flush_chunk, end_chunk_group"])
p("C69", "The metadata log names the series as the data file does",
  "When a file is sent to a server, the metadata log that goes with it creates every series of the schema under the name (device, dot, measurement) that it has in the data file.",
  "all schemas with a series, all storage groups, all servers", "all schemas",
  ["tsfile-writer/src/sync/sync_sender.rs: SyncSender::write_mlog, sync", "tsfile-writer/src/sync/mlog.rs: MLog::create_plan"])
p("C70", "The memory of the writer stays bounded",
  "However long the history is, only a bounded number of points waits in memory after each call: at most 2^27 points, which need at most 22 bytes each (and 120 bytes for each series).",
  "all schemas, all histories of calls", "all histories, of any length; the check of the memory is made only now and then, at intervals that depend on all earlier calls",
  [W+"tsfile_writer.rs: check_memory_size_and_may_flush_chunks, write_many", W+"chunk_writer.rs: estimate_max_series_mem_size"])
p("C71", "A history of any length stays within the format",
  "What a call adds to the output depends only on the number of points since the last flush, not on the length of the history: at most 22 bytes per point, N + 7 bytes per device and N + 167 bytes per series. With closing, add the index of all blocks. So sessions of up to ten billion points with PLAIN series without compression stay within the 32 bit fields of the format.",
  "all schemas, all histories of calls", "all histories, of any length",
  [W+"tsfile_writer.rs: flush_all_chunk_groups, close", W+"tsfile_io_writer.rs: end_file"])
p("C72", "A crash at any byte loses only the end",
  "If the output ends at any byte, in the middle of a page, of a header or of the index, because of a crash or a full disk, then a scan that keeps complete chunks finds for each series a beginning of its points, in order and unchanged, and nothing else. It finds at least the points of all the flushes that were complete, and exactly those of the chunks that end before the cut.",
  "all schemas, all histories of calls, all crash points counted in bytes of the output (including those during a call, during closing and on a full disk); what is on the disk is a beginning of what was written, so reordering of writes by the system is not covered (see C95)", "every byte of every file is a crash point",
  [W+"tsfile_writer.rs: TsFileWriter::write, write_many, close, flush_all_chunk_groups", W+"tsfile_io_writer.rs: start_chunk_group, start_flush_chunk, end_file", W+"chunk_writer.rs: write_all_pages_of_chunk_to_ts_file"])
p("C73", "The file does not depend on how the output cuts the data",
  "On every output that stores what it accepts, on which write_all succeeds and which takes calls of at most 8 bytes whole, every call on the writer returns what it returns on a vector and the final file is the same byte for byte, however the output cuts the larger writes. On an output that runs full after n bytes, the writer does call by call what the simpler model of a full disk (C31, C32) says.",
  "all outputs of this kind, all schemas, all histories of calls, all limits n; files below 2^64 bytes", "there are unboundedly many ways to cut the writes",
  [W+"mod.rs: WriteWrapper, Serializable", W+"tsfile_io_writer.rs: start_file, start_chunk_group, start_flush_chunk, end_file", W+"chunk_writer.rs: write_to_file_writer", W+"tsfile_writer.rs: TsFileWriter::new, write, write_many, close"])
p("C74", "An output that fails for a while",
  "The writer is used on a working output, then on one that fails at will, and the output works again when close writes the index. The file can be read, and every series has first all the points that were on the disk before the trouble, followed by some of the later points in their order and unchanged: failures can lose points, but never change, reorder or invent any, and never damage what was written before. Once the output works again, no point of a successful call is lost any more.",
  "all outputs and all patterns of failures and short writes, all schemas, all histories of calls before, during and after the trouble", "there are unboundedly many failure patterns and points at which they strike",
  [W+"mod.rs: WriteWrapper, Serializable", W+"chunk_writer.rs: ChunkWriter::write_to_file_writer, write_page_to_buffer", W+"tsfile_io_writer.rs: TsFileIoWriter, end_file", W+"tsfile_writer.rs: flush_all_chunk_groups, close"])
p("C75", "The Bloom filter describes the stored series and nothing else",
  "A bit of the Bloom filter in the file is set exactly if it is one of the hash positions of the path of a series with stored points; the filter is sized for the number of these paths, with a minimum of 256 bits. In particular the filter of a file without points excludes every path.",
  "all schemas, all histories of calls" + "; within the capacities of the format, and a filter of fewer than 2^31 bits", "a filter with too many bits set is still never wrong about a stored series: only its use is lost",
  [W+"mod.rs: BloomFilter", W+"tsfile_io_writer.rs: end_file"])
p("C76", "A file is the reference, byte by byte",
  "The part of a closed file before its index is, byte by byte, what a short reference describes for the points of each flush: the head, the chunk groups in the order of the device names, the chunks in the order of the measurement names, chunk headers, page headers and statistics, TS_2DIFF blocks of 128 differences and PLAIN values, and compressed pages. In particular the points of a chunk are in exactly the pages that the page policy gives them. The rest of the file is the reference too, also for measurement names with dots: the records of the series, by the part of their path before the last dot, with their merged statistics and chunk positions, the nodes of the devices with one entry for each 256 records, the footer with the position of the data end, the Bloom filter and the length of the footer; only the order of the device nodes, which comes from a hash map, is left open.",
  "all schemas, all histories of calls" , "the encoders and the page writers have state that depends on everything written before; every byte of every file is claimed",
  [W+"tsfile_writer.rs: flush_all_chunk_groups", W+"chunk_writer.rs: ChunkWriter", W+"chunk_writer.rs: PageWriter", W+"encoding/time_encoder.rs", W+"encoding/plain.rs: PlainEncoder", W+"tsfile_io_writer.rs: start_chunk_group, start_flush_chunk, end_file", W+"mod.rs: BloomFilter"])
p("C77", "The order of the calls does not show in the file",
  "Two sessions that flush the same points of each series, flush by flush, give the same file to the last byte, however the points of different series were interleaved, whether they came by write or write_many, whichever calls failed, and in whatever order devices and measurements are in the schema. For histories of up to six million points the stored points of each series alone decide the file.",
  "all pairs of schemas with the same series, all pairs of histories of calls", "there are unboundedly many interleavings of the same points",
  [W+"tsfile_writer.rs: TsFileWriter::write, write_many, close", W+"group_writer.rs: GroupWriter", W+"tsfile_io_writer.rs: end_file"])
p("C78", "What a crash leaves on an output with a buffer",
  "On an output with a buffer of its own, such as std::io::BufWriter, that keeps bytes back until it is flushed: whenever no call is running, all the points the writer has moved to the file are on the disk and can be recovered from there, and a crash during a call loses none of them; when close has returned, the whole file is on the disk.",
  "all schemas, all histories of calls (up to 190 million points) and all ways in which such an output may keep bytes back", "what is on the disk depends on when the buffer of the output runs full",
  [W+"tsfile_io_writer.rs: end_chunk_group, end_file", W+"mod.rs: WriteWrapper::flush", W+"tsfile_writer.rs: TsFileWriter::new_from_writer, close"])
p("C79", "The Python classes are memory safe, and their files are right",
  "A Python program that uses the classes Schema and TsFileWriter never makes the library read or free memory that is gone, in whatever order it makes, uses, frees, closes and drops the objects, catches exceptions, and whatever strings and numbers it passes. Every step returns, raises an exception or ends the process, each exactly for a stated reason. A writer object that was closed and for whose file no other writer object was made leaves under its name the file that the Rust interface makes for the schema and for the points that this object took (strings count up to their first zero byte).",
  "all sequences of constructor calls, method calls and dropped references, with any number of objects and any arguments", "whether a string that Python may reclaim is still used by the library depends on the whole history of the program",
  ["tsfile-writer-c/rust.py: VariableHolder, Schema, TsFileWriter", "tsfile-writer-c/src/lib.rs: schema_simple, schema_free, file_writer_new, file_writer_write_int32, file_writer_close"])
p("C80", "The Python classes take every point that the Rust interface takes",
  "With a writer object that is open, write_int takes a 32 bit value at any 64 bit timestamp exactly if the Rust interface takes it.",
  "all histories of a Python program, all timestamps and values", "there are 2^64 timestamps",
  ["tsfile-writer-c/rust.py: cdef, TsFileWriter.write_int"])
p("C81", "An orderly program always gets its complete file",
  "If every call hands over points of series of the schema, with values of their types, and the timestamps of each series are not negative and increase, then every call returns Ok, and closing completes exactly if the file has at most 256 index devices and a Bloom filter that the writer can write (always so if the schema has at most 40 series); the finished file then contains exactly the points that were handed over, found by a scan and, for measurement names without dots, through the index.",
  "all schemas and all histories with conditions on the inputs only: up to a hundred million points, or ten billion for PLAIN series without compression; at most 1000 devices, names of up to 100 bytes", "histories and schemas without number; automatic flushes happen only after millions of points",
  ["tsfile-writer/src/writer/tsfile_writer.rs: TsFileWriter", "tsfile-writer/src/writer/tsfile_io_writer.rs: end_file"])
p("C82", "The programs that come with the crate write complete files",
  "Each of the two benchmark programs, the program in rust.py, and the quickstart program of the documentation, runs without a failing call and leaves a file from which exactly the points that it wrote can be read.",
  "all numbers of rounds of the benchmarks (up to ten billion and 25 million), all Python programs with the two with statements of rust.py (any names, types and up to a hundred million points), all iteration orders of the hash maps in the builders", "the programs write 100 million and 40 million points; orders of hash maps are random",
  ["examples/src/bin/benchmark.rs: main", "examples/src/bin/benchmark2.rs: main", "tsfile-writer/src/lib.rs: quickstart", "tsfile-writer-c/rust.py: __main__"])
p("C83", "What a program wrote arrives at the receiver",
  "If a program that hands over points in order writes a file, and a connected sender then transfers the file under the name that the program gave it, the transfer succeeds, and the receiver has a metadata log that creates the series of the schema below the storage group and a data file from which exactly the points can be read.",
  "all schemas and histories with conditions on the inputs only (up to a hundred million points), all file names, storage groups and connected senders, a receiver behind this crate's processor that keeps what it gets and checks digests; for the failure all servers", "the writer, the log, the client, the processor and the protocol together, for histories without number",
  ["tsfile-writer/src/writer/tsfile_writer.rs: TsFileWriter", "tsfile-writer/src/sync/sync_sender.rs: SyncSender.sync", "tsfile-writer/src/sync/sync.rs: SyncServiceSyncProcessor"])
p("C84", "A C program that hands over its points in order gets complete files",
  "If a C program keeps to the rules of C46, makes its strings in UTF-8, its schemas with the type INT32 and known codes, its files where they can be created, and writes through each handle only to the series of its schema with timestamps that are not negative and increase, then every call returns, and the file of every writer that it closes and whose file no other writer was opened on contains exactly the points that were written through its handle.",
  "all C programs with conditions on the arguments only, any number of schemas and writers at the same time, up to a hundred million points per writer", "programs without number; handles and strings can be interleaved in any way",
  ["tsfile-writer-c/src/lib.rs: file_writer_new, file_writer_write_int32, file_writer_close, schema_simple"])
p("C85", "A Python program that hands over its points in order gets complete files",
  "If a Python program makes its schema objects with the constants of rust.py (INT32 for the type), its files where they can be created, and hands to each writer object only points of the series of its schema object, with timestamps that are not negative and increase, then the process is never ended; each step returns or raises an exception that can be caught, and the file of every writer object that was closed and for whose file no other writer object was made contains exactly the points that the writer object took.",
  "all Python programs with conditions on the arguments only: any number of objects at the same time, dropped, freed, closed and used in any order, also after they were closed; up to a hundred million points per writer object", "programs without number",
  ["tsfile-writer-c/rust.py: Schema, TsFileWriter", "tsfile-writer-c/src/lib.rs: schema_simple, schema_free, file_writer_new, file_writer_write_int32, file_writer_close"])
p("C86", "The memory behind the Python objects",
  "At any moment, the library holds one schema for each Schema object that was made and not freed, and one writer for each TsFileWriter object that was made and not closed, and nothing else; so a program that frees and closes what it made leaves nothing (and one that only drops its objects leaves all of them). When the program refers to none of its objects any more, none of the strings it passed is left.",
  "all Python programs that are not ended, and all moments in them", "histories without number; a leak shows only in long runs",
  ["tsfile-writer-c/rust.py: VariableHolder, Schema.free, TsFileWriter.close", "tsfile-writer-c/src/lib.rs: schema_free, file_writer_new, file_writer_write_int32, file_writer_close"])
p("C87", "Queries that skip by statistics find everything",
  "A reader that answers a query for a range of times, and possibly of values, the way a database does (it asks the Bloom filter first, does not touch a series or a chunk whose statistics in the index rule it out, and jumps over the pages whose statistics rule them out) finds exactly the stored points of the series that are in the range, in their order.",
  "all histories, all series, all ranges of times and values (also for FLOAT values with infinities and NaN)", "histories, ranges and divisions into pages and chunks without number; wrong statistics only show in queries whose range ends near them",
  ["tsfile-writer/src/writer/statistics.rs: update, merge, serialize", "tsfile-writer/src/writer/chunk_writer.rs: write_page_to_buffer", "tsfile-writer/src/writer/mod.rs: BloomFilter, TimeSeriesMetadata"])
p("C88", "Aggregates computed from the statistics are those of the points",
  "A reader that computes the number of points, the first and last time, the smallest and largest value, or the sum of the values in a range of times, and takes it from the statistics of the series, of the chunks and of the pages wherever these lie completely in the range, gets what it would get by reading all the points.",
  "all histories, all series (for the smallest and largest value those of type INT32 and INT64, for the sum those of type INT32), all ranges of times, for the count and the sum fewer than 2^32 points in the series", "histories, ranges and divisions into pages and chunks without number",
  ["tsfile-writer/src/writer/statistics.rs: update, merge, serialize", "tsfile-writer/src/writer/mod.rs: ChunkMetadata, TimeSeriesMetadata"])
p("C89", "Steady series take little room",
  "Integers whose neighbours differ by numbers from a range of 2^k take at most 24 + 16 k bytes (8 less for 32 bit integers) for every 129 of them in TS_2DIFF, and are recovered from these. In a file whose series are integers in TS_2DIFF without compression, with timestamps that are steady within k bits and values that are steady within j bits, a point takes at most (4 + k + j)/7 of a byte, beyond a fixed part for each device and series and flush and the Bloom filter.",
  "all lists of integers, all k and j, all schemas of such series, all histories of calls", "lists and histories without number; the size depends on all the differences in a block",
  [W+"encoding/time_encoder.rs: IntTs2DiffEncoder", W+"encoding/time_encoder.rs: LongTs2DiffEncoder", W+"chunk_writer.rs: PageWriter", W+"chunk_writer.rs: ChunkWriter", W+"tsfile_writer.rs: close"])
p("C90", "Messages that are no calls of the interface are refused",
  "A message for a method that the service does not have is answered with an exception of the kind unknown method, with the name and the number of the message; a call without its argument with an exception with the name and the number of the call. In neither case the handler is called, and in both the next call on the connection is understood. A message whose name is not a text has no answer. A client that gets such an exception for its call returns an error.",
  "all handlers, all names, all numbers, all arguments that the protocol can carry (for check: none), whatever follows on the connection", "names, arguments and handlers without number",
  ["tsfile-writer/src/sync/sync.rs: SyncServiceSyncProcessor::process, process_check, process_init, SyncServiceInitArgs::read_from_in_protocol, verify_required_field_exists"])
p("C91", "First and last points, and extremes of FLOAT series, from the statistics",
  "A reader that looks for the first or the last point of a series in a range of times, or for the smallest or largest value of a FLOAT series, and takes it from the statistics of the series, of the chunks and of the pages wherever these lie completely in the range, gets what it would get by reading all the points.",
  "all histories, all series (for the extremes those of type FLOAT), all ranges of times", "histories, ranges and divisions into pages and chunks without number",
  ["tsfile-writer/src/writer/statistics.rs: update, merge, serialize", "tsfile-writer/src/writer/mod.rs: ChunkMetadata, TimeSeriesMetadata"])
p("C92", "A reader that searches by bisection finds every series",
  "A reader that searches the nodes of the index by bisection, as the format provides for, finds the metadata and the points of every series that was stored, and nothing for other names. No node and no part of the file that it has to search has more than 256 entries.",
  "all schemas and histories, all hash map iteration orders, all names", "whether a name is found depends on all the names in the node and on their order",
  ["tsfile-writer/src/writer/mod.rs: MetadataIndexNode, construct_metadata_index", W+"tsfile_io_writer.rs: end_file"])
p("C93", "A file that was not finished is not taken for a finished one",
  "What a writer leaves behind that was not closed, or that was stopped while it was closing, is not mistaken for a finished file, wherever it ends: a reader from front to back reports the end of the data only if all the data is there, and then finds all the stored points, and a reader that starts at the end of the file reports an error.",
  "all schemas, all histories, all places at which the file can be cut off", "cut-off places and contents without number; whether a beginning of a file passes for a file depends on the bytes of names and values",
  [W+"tsfile_io_writer.rs: TsFileIoWriter::new, end_file", W+"tsfile_writer.rs: TsFileWriter::close"])
p("C94", "Writers that work at the same time",
  "Writers that are used at the same time, from one thread or from several, do not disturb each other: whatever the order in which their system calls happen, every file is in the end what it would be if its writer had been alone, no other file is touched, and at every moment a file is a beginning of what it will be. A file on which a writer is working cannot be opened by another one.",
  "all schedules of the system calls, any number of writers, all schemas and histories, all ways in which the output is cut into calls; files below 2^64 bytes, and a disk that is not full", "schedules without number",
  [W+"tsfile_writer.rs: TsFileWriter::new, close", "tsfile-writer/src/writer/mod.rs: WriteWrapper::write"])
p("C95", "A loss of power after close",
  "Once close has returned, the points are safe: a loss of power leaves the complete file, and what is found after a loss of power at any time contains no point that was not written.",
  "all schemas and histories, all moments, all sizes of the blocks of a disk, all sets of blocks that have reached the medium, and all lengths of the file", "the order in which an operating system writes its blocks cannot be forced in a test, and the sets of blocks are without number",
  [W+"tsfile_writer.rs: TsFileWriter::new, close", "tsfile-writer/src/writer/mod.rs: WriteWrapper"])
p("C96", "Producers that share a writer",
  "If several producers (threads that send their points through a queue to the one with the writer, tasks, callbacks) hand points to one writer, and no two of them have points of the same series, then nobody notices the others: whatever the order in which the calls reach the writer, every producer gets the answers that it would get if it had the writer alone, and the file is the same to the last byte.",
  "all schedules (orders of the calls that keep the order of each producer), any number of producers, all schemas, all histories of calls with values of the types of the series, also calls that fail", "the number of schedules is exponential in the number of calls",
  [W+"tsfile_writer.rs: TsFileWriter::write, write_many, check_memory_size_and_may_flush_chunks, close", W+"group_writer.rs: GroupWriter::write"])
p("C97", "A sender that is used again",
 "A connected sender can transfer any number of files, one after the other. Over a receiver that keeps what it gets, all transfers succeed and all metadata logs and data files arrive. Whatever fails in between, and whether or not a failed call was received, the files of the transfers are not mixed up: every file of the receiver is the log or the data file of one transfer, under its own name, and empty or whole. A transfer that returned Ok is complete, an error does not keep later transfers from succeeding, and one failing transfer does not keep the program from making the others.",
 "all sequences of transfers (files, storage groups, schemas, contents of the file system at each), all servers, all subsets of the failed calls that were received",
 "The mixing up of files would show only for particular failures at particular calls of particular sequences of transfers, in combination with what of a failed call was received.",
 [S+"sync_sender.rs: SyncSender::sync", S+"sync.rs: SyncServiceSyncClient"])
p("C98", "A connection after a failed call",
 "A call that failed does not disturb the calls behind it: on one connection every call that was answered returns the answer to it, whatever the calls before it returned.",
 "all sequences of calls on one connection, all answers to them, all bytes that come in besides",
 "Whether a connection is still in step depends on where in the incoming bytes every earlier call stopped reading.",
 [S+"sync.rs: TSyncServiceSyncClient (check, start_sync, init, ...)", S+"sync_sender.rs: SyncSender::sync"])
p("C99", "Series without points leave no trace",
 "Devices and measurements that are declared in the schema but are named by no call leave no trace: with or without them all calls return the same, readers find the same points, and the file is the same to the last byte.",
 "all histories of calls, all pairs of schemas that agree on what the calls name",
 "Every declared series has a writer of its own that is counted, sealed and flushed with the others; whether it shows depends on every flush of the history.",
 [W+"chunk_writer.rs: ChunkWriter::estimate_max_series_mem_size, write_to_file_writer", W+"group_writer.rs: GroupWriter::flush_to_filewriter", W+"tsfile_writer.rs: TsFileWriter::flush_all_chunk_groups"])

p("C100","Queries that stop at the end of the range find everything",
  "A reader that answers a query for a range of times and takes for granted that the times of a series increase (it reads the chunks, pages and points of the series in their order and stops at the first one that begins after the end of the range) finds exactly the stored points of the series that are in the range.",
  "all histories, all series, all ranges of times and values",
  "What the reader misses depends on where automatic flushes fall, which takes millions of points; and the claim is about every query.",
  [W+"tsfile_writer.rs: TsFileWriter::write, flush_all_chunk_groups", W+"group_writer.rs: GroupWriter::write, check_is_history_data", W+"chunk_writer.rs: ChunkMetadata, Statistics"])

# Capacities of the format and of the model, added to the quantifiers of the properties about whole files.
CAP = "; within the capacities of the format: series paths below 2^31 bytes, fewer than 2^32 points between two flushes, fewer than 2^32 bytes added by one call or by closing, files below 2^64 bytes"
IDX = "; measurement names without dots and at most 65536 measurements per device (for other schemas the index itself is wrong: C01, C23, C33)"
EXTRA = {
 "C01": CAP, "C02": CAP, "C13": CAP, "C14": CAP, "C28": CAP, "C45": CAP, "C50": CAP, "C41": CAP,
 "C56": IDX + CAP, "C57": CAP + "; for the index also measurement names without dots and at most 65536 measurements per device", "C16": IDX + CAP, "C17": IDX + CAP, "C18": IDX + CAP, "C19": IDX + CAP, "C20": IDX + CAP, "C21": IDX + CAP, "C22": IDX + CAP,
 "C89": CAP, "C76": CAP + "; for the index also a filter of fewer than 2^31 bits", "C77": CAP,
 "C99": CAP, "C100": IDX + CAP, "C87": IDX + CAP + ", and a filter of fewer than 2^31 bits", "C88": IDX + CAP + ", and a filter of fewer than 2^31 bits", "C92": IDX + CAP, "C93": CAP, "C91": IDX + CAP + ", and a filter of fewer than 2^31 bits",
 "C26": CAP + ", and a filter of fewer than 2^31 bits", "C23": CAP, "C24": CAP,
 "C03": "; less than 4 GB of points waiting for the next flush (22 bytes each, and 120 bytes for each series), so that the 32 bit memory estimate does not wrap",
 "C49": "; less than 4 GB of points waiting for the next flush (22 bytes each, and 120 bytes for each series)",
 "C34": "; records below 2^31 bytes",
 "C05": CAP, "C06": CAP, "C29": CAP, "C51": CAP, "C72": CAP, "C78": CAP,
 "C15": "; fewer than 2^32 points waiting for the next flush",
 "C60": "; requests and texts below 2^31 bytes (above: C53)", "C61": "; requests and texts below 2^31 bytes (above: C53)",
 "C69": "; logs below 2^31 bytes",
}
for x in P: x["quantifier"] += EXTRA.get(x["id"], "")
os.makedirs("/verif", exist_ok=True)
with open("/verif/properties.jsonl", "w") as f:
    for x in P: f.write(json.dumps(x) + "\n")
print(len(P))
