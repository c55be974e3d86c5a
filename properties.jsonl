{"id": "C01", "title": "Seek resolves every legal row offset to the one physical position that holds it", "statement": "big_block_seek(offset) succeeds exactly for -size <= offset <= size; a negative offset means size+offset; on success the pointer names a file and an in-file row whose start offset plus in-file row equals the requested row, and (unless the pointer is at the end of the block) that file really contains the row. For every other offset it returns -1 and leaves the pointer unchanged.", "quantifier": "all blocks (any number of files, any file sizes including empty files), all 64-bit offsets", "why_tests_cant": "Tests seek to a handful of offsets in a few layouts; the binary search must be right for every layout, in particular with runs of zero-sized files.", "anchors": ["src/bigfile.c:big_block_seek", "src/bigfile.c:big_block_eof"]}
{"id": "C02", "title": "Relative seek composes", "statement": "big_block_seek_rel moves the pointer by exactly the requested number of rows: seeking to p and then by d equals seeking to p+d whenever 0 <= p+d; moves that leave [0,size] are refused with the pointer unchanged.", "quantifier": "all blocks, all start rows, all relative moves", "why_tests_cant": "A test can only try sample moves; the failing class (a move to before the first row) is easily missed.", "anchors": ["src/bigfile.c:big_block_seek_rel", "src/bigfile.c:big_block_seek"]}
{"id": "C03", "title": "Read returns what was written", "statement": "After big_block_write of an array at row p returned 0, big_block_read of the same rows returns 0 and delivers, element by element in row-major order, the written values converted to the block dtype and from there to the reader's dtype.", "quantifier": "all blocks, row ranges, array shapes and strides (any rank), source/target dtypes, buffer sizes, and prior contents; a source array of foreign byte order must not overlap itself (its bytes are swapped in place), and rows have at least one element", "why_tests_cant": "The space of file partitions x chunk boundaries x shapes x dtypes is unbounded; chunk and file boundaries falling at different places is exactly where bugs hide.", "anchors": ["src/bigfile.c:big_block_write", "src/bigfile.c:big_block_read", "src/bigfile.c:_dtype_convert"]}
{"id": "C04", "title": "A write changes only the rows it addresses", "statement": "big_block_write at rows [p,p+n) leaves every other readable row of the block bit-identical, and touches no file other than the data files of that block: not its header or attributes, not another block.", "quantifier": "all blocks, row ranges, prior file-system states", "why_tests_cant": "A frame property: it speaks about every byte not written.", "anchors": ["src/bigfile.c:big_block_write", "src/bigfile.c:_big_file_open_a_file", "src/bigfile.c:_path_join"]}
{"id": "C05", "title": "The number and sizes of physical files are invisible", "statement": "Two blocks with equal dtype, nmemb and total size but different splits into physical files hold the same rows after the same writes and return the same data to the same reads.", "quantifier": "all pairs of file partitions of the same total, all write/read arguments", "why_tests_cant": "Quantifies over pairs of arbitrary partitions.", "anchors": ["src/bigfile.c:big_block_write", "src/bigfile.c:big_block_read", "src/bigfile.c:big_block_seek"]}
{"id": "C06", "title": "The transfer buffer size is invisible", "statement": "The result of big_block_read/big_block_write does not depend on the value given to big_file_set_buffer_size, provided it holds at least one row.", "quantifier": "all buffer sizes at least one row, all blocks and arguments", "why_tests_cant": "Tests use one or two buffer sizes.", "anchors": ["src/bigfile.c:big_file_set_buffer_size", "src/bigfile.c:big_block_read", "src/bigfile.c:big_block_write"]}
{"id": "C07", "title": "A write always terminates", "statement": "big_block_write returns for every legal argument.", "quantifier": "all blocks, arrays and buffer sizes", "why_tests_cant": "Non-termination cannot be observed by a finite test run; the bad case needs a buffer smaller than one row.", "anchors": ["src/bigfile.c:big_block_write", "src/bigfile.c:big_file_set_buffer_size"]}
{"id": "C08", "title": "Out-of-range transfers are refused without effect", "statement": "A read or write that would extend past the last row returns -1, changes no file, does not move the pointer and does not touch the caller's array.", "quantifier": "all blocks, pointers and array sizes", "why_tests_cant": "Boundary must be exact for every size, including sizes where 64-bit comparisons mix signed and unsigned.", "anchors": ["src/bigfile.c:big_block_read", "src/bigfile.c:big_block_write"]}
{"id": "C09", "title": "A failed or interrupted write damages only its own rows", "statement": "If a write fails part-way (any file operation fails or is short) or the process is killed at any point inside it, then every row outside the addressed range, the header, the attributes and all other files are unchanged, and every stored byte inside the range is either its old value or the newly written value.", "quantifier": "all crash points and I/O fault patterns, all blocks and arguments", "why_tests_cant": "Needs every crash point of every schedule; tests inject none.", "anchors": ["src/bigfile.c:big_block_write"]}
{"id": "C10", "title": "A successful return means all rows are stored / delivered", "statement": "Under any pattern of file-operation failures, if big_block_write returns 0 then every addressed row is stored, and if big_block_read returns 0 then every addressed row was delivered as stored: no short transfer is reported as success.", "quantifier": "all I/O fault patterns, blocks, arguments", "why_tests_cant": "Needs arbitrary fault sequences.", "anchors": ["src/bigfile.c:big_block_write", "src/bigfile.c:big_block_read"]}
{"id": "C11", "title": "Header round trip", "statement": "Closing (or flushing) a block and reopening it yields the same dtype, nmemb, number of files, per-file sizes, offsets, total size and per-file checksums.", "quantifier": "all well-formed blocks (any number of files, any sizes)", "why_tests_cant": "The text format is printed and scanned by different code; agreement must hold for all values, including number-width limits.", "anchors": ["src/bigfile.c:big_block_flush", "src/bigfile.c:_big_block_open"]}
{"id": "C12", "title": "Whatever can be created can be reopened", "statement": "If big_file_create_block returns 0 then big_file_open_block on the same name returns 0.", "quantifier": "all names, dtypes, nmemb and partitions accepted by create", "why_tests_cant": "Create and open apply different validity checks; only a proof over all dtypes relates them.", "anchors": ["src/bigfile.c:_big_block_create_internal", "src/bigfile.c:_big_block_open", "src/bigfile.c:dtype_isvalid"]}
{"id": "C13", "title": "Opening validates the header", "statement": "For any bytes in the header file, big_file_open_block returns 0 or -1; if 0, the block is internally consistent: dtype valid with positive item size, nmemb >= 0, one size and checksum per file, offsets are the running sums of the sizes.", "quantifier": "all byte strings as header content", "why_tests_cant": "Adversarial/corrupted headers form an infinite space.", "anchors": ["src/bigfile.c:_big_block_open", "src/bigfile.c:dtype_isvalid"]}
{"id": "C14", "title": "Flush touches the disk only when needed and is idempotent", "statement": "Opening a block and closing it without modification changes nothing on disk; a second flush in a row changes nothing.", "quantifier": "all disk states and blocks", "why_tests_cant": "Frame property over all files.", "anchors": ["src/bigfile.c:big_block_flush", "src/bigfile.c:big_block_close"]}
{"id": "C15", "title": "Flush is crash-safe", "statement": "If the process is killed during big_block_flush, the block on disk can still be opened and has either the old or the new metadata.", "quantifier": "all crash points, all blocks", "why_tests_cant": "Requires every crash point.", "anchors": ["src/bigfile.c:big_block_flush", "src/bigfile.c:attrset_write_attr_set_v2"]}
{"id": "C16", "title": "A successful flush means the metadata is stored", "statement": "Under any pattern of file-operation failures, if big_block_flush returns 0 the header and attribute files hold the block's current metadata.", "quantifier": "all fault patterns, all blocks", "why_tests_cant": "Needs arbitrary fault sequences, e.g. a full disk at fclose.", "anchors": ["src/bigfile.c:big_block_flush", "src/bigfile.c:attrset_write_attr_set_v2"]}
{"id": "C17", "title": "Growing appends", "statement": "big_block_grow adds the given files at the end: the size increases by the sum of the new sizes, every existing row keeps its index and content, existing checksums are kept, and the new rows can be written and read.", "quantifier": "all blocks, all lists of new file sizes, any prior contents", "why_tests_cant": "Quantifies over arbitrary layouts before and after.", "anchors": ["src/bigfile.c:big_block_grow", "src/bigfile.c:_big_block_grow_internal"]}
{"id": "C18", "title": "Checksums count the bytes written", "statement": "After creation, each file's checksum equals, modulo 2^32, the sum of all bytes ever written to that file through the handle, however the writes were cut into chunks; hence if every row is written exactly once it equals the byte sum of the file, and the printed reduced checksum is the System V sum (sum -s).", "quantifier": "all histories of writes, all chunkings", "why_tests_cant": "Quantifies over histories.", "anchors": ["src/bigfile.c:sysvsum", "src/bigfile.c:big_block_write", "src/bigfile.c:big_block_flush", "utils/bigfile-ls.c", "utils/bigfile-check"]}
{"id": "C19", "title": "Checksums always match the file contents", "statement": "After any history of writes the header checksum of a file equals the byte sum of the file's contents.", "quantifier": "all histories, including rewriting rows", "why_tests_cant": "Quantifies over histories.", "anchors": ["src/bigfile.c:sysvsum", "src/bigfile.c:big_block_write"]}
{"id": "C20", "title": "Strided arrays are traversed in row-major order", "statement": "Advancing an array iterator k times from its start reaches the element whose multi-index is the k-th in row-major order, at address data + sum(index_i*stride_i); the contiguous fast path agrees with the general one. An array made without strides has its elements one after the other.", "quantifier": "all ranks >= 1, all dimensions, all strides (negative, zero, overlapping), all k below the array size", "why_tests_cant": "Carry logic over arbitrary rank and shape.", "anchors": ["src/bigfile.c:big_array_iter_init", "src/bigfile.c:big_array_iter_advance", "src/bigfile.c:big_array_init"]}
{"id": "C21", "title": "A read writes only the elements of the caller's array", "statement": "big_block_read modifies no byte of memory outside the elements of the destination array.", "quantifier": "all arrays (any strides), blocks, fault patterns", "why_tests_cant": "A memory frame property.", "anchors": ["src/bigfile.c:big_block_read", "src/bigfile.c:_dtype_convert", "src/bigfile.c:cast", "src/bigfile.c:byte_swap"]}
{"id": "C22", "title": "A write does not modify the caller's array", "statement": "big_block_write and big_block_set_attr leave the source data unmodified.", "quantifier": "all arrays and dtypes", "why_tests_cant": "Must hold for every dtype and byte order; tests rarely look at the source afterwards.", "anchors": ["src/bigfile.c:_dtype_convert", "src/bigfile.c:byte_swap", "src/bigfile.c:big_block_write", "src/bigfile.c:big_block_set_attr"]}
{"id": "C23", "title": "Integer conversions preserve representable values", "statement": "Converting between i4,u4,i8,u8 preserves the value when it is representable in the target type, and reduces modulo 2^width otherwise; i4->i8->i4 and u4->u8->u4 are the identity.", "quantifier": "all values, all byte orders on both sides", "why_tests_cant": "2^64 values x type pairs x byte orders.", "anchors": ["src/bigfile.c:cast", "src/bigfile.c:_dtype_convert"]}
{"id": "C24", "title": "Byte order is transparent", "statement": "Storing data in a block of the opposite byte order and reading it back returns the same values; the stored bytes are those of the declared byte order.", "quantifier": "all element values, all non-complex dtypes, both machine byte orders", "why_tests_cant": "Quantifies over values and both kinds of machine.", "anchors": ["src/bigfile.c:byte_swap", "src/bigfile.c:_dtype_convert"]}
{"id": "C25", "title": "Unsupported conversions are refused without storing anything", "statement": "If no conversion exists between the array dtype and the block dtype, read and write return -1 and no data file changes.", "quantifier": "all dtype pairs", "why_tests_cant": "The supported table is finite but dtype strings are not.", "anchors": ["src/bigfile.c:cast", "src/bigfile.c:big_block_write", "src/bigfile.c:big_block_read"]}
{"id": "C26", "title": "Dtype normalisation is canonical", "statement": "Normalising is idempotent, keeps kind and width, and the results start with the machine or the explicit byte order; item size and kind of a dtype equal those of its normal form.", "quantifier": "all dtype strings", "why_tests_cant": "Infinite set of strings.", "anchors": ["src/bigfile.c:_dtype_normalize", "src/bigfile.c:big_file_dtype_itemsize", "src/bigfile.c:big_file_dtype_kind"]}
{"id": "C27", "title": "Attributes behave as a finite map", "statement": "After any sequence of big_block_set_attr / remove_attr / get_attr / list_attrs, looking up a name gives exactly the dtype, length and bytes of the last successful set not followed by a remove; other names are unaffected; listing gives each name once, in byte order.", "quantifier": "all operation histories, any number and size of attributes", "why_tests_cant": "Buffer doubling, re-basing and re-sorting happen at history-dependent moments.", "anchors": ["src/bigfile.c:attrset_set_attr", "src/bigfile.c:attrset_add_attr", "src/bigfile.c:attrset_remove_attr", "src/bigfile.c:attrset_lookup_attr", "src/bigfile.c:attrset_list_attrs"]}
{"id": "C28", "title": "Attribute storage is memory-safe", "statement": "Through any history, every attribute's name and value lie inside the storage buffer, and the storage of distinct attributes does not overlap.", "quantifier": "all operation histories", "why_tests_cant": "Memory safety over histories.", "anchors": ["src/bigfile.c:attrset_add_attr", "src/bigfile.c:attrset_append_attr"]}
{"id": "C29", "title": "Attribute names with blanks are refused", "statement": "big_block_set_attr with a name containing space, tab or newline returns -1 and leaves all attributes as they were.", "quantifier": "all names, all attribute sets", "why_tests_cant": "All strings.", "anchors": ["src/bigfile.c:attrset_set_attr"]}
{"id": "C30", "title": "Attributes survive close and reopen", "statement": "After closing and reopening a block, every attribute has the same name, dtype, length and bytes as before, and no attribute appears or disappears.", "quantifier": "all attribute sets reachable by successful set calls", "why_tests_cant": "Printer and parser must agree for every name, dtype, length and byte value.", "anchors": ["src/bigfile.c:attrset_write_attr_set_v2", "src/bigfile.c:attrset_read_attr_set_v2"]}
{"id": "C31", "title": "Removing an attribute is persistent", "statement": "After big_block_remove_attr and close, reopening the block does not show the attribute.", "quantifier": "all histories ending in remove+close", "why_tests_cant": "History-dependent dirty tracking and the coexistence of two attribute file formats.", "anchors": ["src/bigfile.c:attrset_remove_attr", "src/bigfile.c:big_block_flush", "src/bigfile.c:_big_block_open"]}
{"id": "C32", "title": "Reading an attribute does not change it", "statement": "big_block_get_attr leaves the attribute set unchanged; repeated calls return the same value.", "quantifier": "all attributes and requested dtypes", "why_tests_cant": "Must hold for all dtypes and byte orders.", "anchors": ["src/bigfile.c:attrset_get_attr", "src/bigfile.c:_dtype_convert"]}
{"id": "C33", "title": "Legacy attribute files are honoured", "statement": "Opening a block with an old binary attribute file yields exactly the records in it, later records and the new-format file taking precedence.", "quantifier": "all record lists", "why_tests_cant": "Arbitrary record sequences.", "anchors": ["src/bigfile.c:attrset_read_attr_set_v1", "src/bigfile.c:_big_block_open"]}
{"id": "C34", "title": "A block handle survives serialisation", "statement": "Packing a block handle and unpacking it elsewhere gives a handle with the same dtype, layout, checksums, attributes and dirty flags.", "quantifier": "all blocks", "why_tests_cant": "Pointer re-basing for arbitrary attribute sets.", "anchors": ["src/bigfile.c:_big_block_pack", "src/bigfile.c:_big_block_unpack", "src/bigfile.c:_big_attrset_pack", "src/bigfile.c:_big_attrset_unpack"]}
{"id": "C35", "title": "Creating a file or block creates the directories it needs", "statement": "If big_file_create(path) returns 0 every ancestor directory named in path exists; the same for each component of a block name in big_file_create_block; nothing is removed.", "quantifier": "all path strings", "why_tests_cant": "All path strings, including doubled and trailing slashes.", "anchors": ["src/bigfile.c:_big_file_mksubdir_r", "src/bigfile.c:_big_file_mkdir", "src/bigfile.c:_path_join"]}
{"id": "C36", "title": "Listing finds exactly the blocks", "statement": "big_file_list returns, without repetition, exactly the names of the directories below the file root that hold a header, that are not inside another block and have no path component starting with a dot.", "quantifier": "all directory trees", "why_tests_cant": "Recursion over arbitrary trees.", "anchors": ["src/bigfile.c:big_file_list", "src/bigfile.c:listbigfile_r", "src/bigfile.c:_big_file_path_is_block"]}
{"id": "C37", "title": "Every created block is listed", "statement": "After big_file_create_block(name) returns 0, big_file_list reports name.", "quantifier": "all names and trees", "why_tests_cant": "Depends on what other blocks exist.", "anchors": ["src/bigfile.c:big_file_list", "src/bigfile.c:big_file_create_block"]}
{"id": "C38", "title": "Distinct blocks never share files", "statement": "The files used by two blocks with different directories are disjoint, and within a block the header, attribute and data files have pairwise different names.", "quantifier": "all block names and file numbers", "why_tests_cant": "Injectivity of naming over all numbers and names.", "anchors": ["src/bigfile.c:_big_file_open_a_file", "src/bigfile.c:_path_join"]}
{"id": "C39", "title": "Error messages are managed safely by concurrent callers", "statement": "When any number of threads set the error message concurrently, each message buffer is released exactly once or is the current message, in every interleaving; re-raising keeps the text of the original message.", "quantifier": "all interleavings, all messages", "why_tests_cant": "All schedules.", "anchors": ["src/bigfile.c:big_file_set_error_message", "src/bigfile.c:_big_file_raise"]}
{"id": "C40", "title": "Record fields are laid out disjointly and get/set obey the store laws", "statement": "In a completed record type, fields occupy consecutive disjoint byte ranges covering the record exactly; get after set of the same field and row returns the value, and set does not affect other fields or rows.", "quantifier": "all field lists, rows and values", "why_tests_cant": "All record types.", "anchors": ["src/bigfile-record.c:big_record_type_complete", "src/bigfile-record.c:big_record_set", "src/bigfile-record.c:big_record_get"]}
{"id": "C41", "title": "Records round-trip through a file", "statement": "Writing n records at row p with big_file_write_records and reading them back with big_file_read_records returns the same bytes in every field, and each field's block holds that field's column.", "quantifier": "all record types, row ranges and buffers", "why_tests_cant": "All record types x layouts.", "anchors": ["src/bigfile-record.c:big_file_write_records", "src/bigfile-record.c:big_file_read_records", "src/bigfile-record.c:big_record_view_field"]}
{"id": "C42", "title": "Requested sizes are split evenly and completely", "statement": "Splitting size rows over Nfile files gives sizes that sum to size and differ by at most one.", "quantifier": "all sizes and file counts", "why_tests_cant": "All pairs of numbers.", "anchors": ["src/bigfile-mpi.c:big_file_mpi_create_block", "bigfile/pyxbigfile.pyx", "utils/bigfile-copy.c"]}
{"id": "C43", "title": "Parallel creation truncates every file exactly once", "statement": "When NTask processes create or grow a block together, each new physical file is truncated by exactly one process and no other file is touched.", "quantifier": "all process and file counts", "why_tests_cant": "All pairs of numbers.", "anchors": ["src/bigfile-mpi.c:_big_block_mpi_create", "src/bigfile-mpi.c:big_block_mpi_grow"]}
{"id": "C44", "title": "Parallel segments are contiguous, exhaustive and bounded", "statement": "The grouping of processes for aggregated I/O assigns each process with data to exactly one segment of consecutive data-holding processes; segments are numbered in process order; all but the last hold more than the target, and none exceeds the target by more than its last member; segments are spread over at most the requested number of concurrent groups, in order.", "quantifier": "all process counts, size distributions, targets and group counts", "why_tests_cant": "All distributions.", "anchors": ["src/mp-mpiu.c:_assign_colors", "src/mp-mpiu.c:MPIU_Segmenter_init"]}
{"id": "C45", "title": "A collective write equals one serial write", "statement": "big_block_mpi_write from any number of processes stores exactly what one big_block_write of the rank-ordered concatenation would store, for every concurrency limit, aggregation threshold, data distribution and interleaving of the processes.", "quantifier": "all process counts, distributions, thresholds, schedules", "why_tests_cant": "All schedules.", "anchors": ["src/bigfile-mpi.c:big_block_mpi_write", "src/bigfile-mpi.c:_throttle_action", "src/bigfile-mpi.c:_aggregated"]}
{"id": "C46", "title": "A collective read equals one serial read", "statement": "big_block_mpi_read gives each process the rows at its rank-ordered offset, as one serial read would.", "quantifier": "all process counts, distributions, thresholds", "why_tests_cant": "All distributions.", "anchors": ["src/bigfile-mpi.c:big_block_mpi_read", "src/bigfile-mpi.c:_throttle_action", "src/bigfile-mpi.c:_aggregated"]}
{"id": "C47", "title": "All processes agree on the outcome", "statement": "After any collective call all processes receive the same return code, it is nonzero iff some process failed, and if it is nonzero they hold the same error message, taken from a failing process.", "quantifier": "all process counts and failure patterns", "why_tests_cant": "All failure patterns.", "anchors": ["src/bigfile-mpi.c:big_file_mpi_broadcast_anyerror"]}
{"id": "C48", "title": "Collective flush stores the total checksum", "statement": "After collective writes and a collective flush/close the checksum of each file equals the byte sum of everything written to it by all processes, also for blocks that were opened or flushed before.", "quantifier": "all process counts and histories of writes and flushes", "why_tests_cant": "Histories over many processes.", "anchors": ["src/bigfile-mpi.c:big_block_mpi_flush", "bigfile/__init__.py"]}
{"id": "C49", "title": "Sparse all-to-all exchange pairs every two processes exactly once", "statement": "In the pairwise exchange schedule every process meets every process exactly once and both sides agree on the round, for any number of processes; the data delivered equals that of MPI_Alltoallv.", "quantifier": "all process counts and message sizes", "why_tests_cant": "All process counts.", "anchors": ["src/mp-mpiu.c:MPI_Alltoallv_sparse", "src/mp-mpiu.c:MPIU_Alltoallv"]}
{"id": "C50", "title": "Extremum location is deterministic", "statement": "The location of the minimum/maximum value over processes is the lowest rank attaining it.", "quantifier": "all process counts and values", "why_tests_cant": "All value vectors.", "anchors": ["src/mp-mpiu.c:MPIU_GetLoc"]}
{"id": "C51", "title": "Copying a block preserves it", "statement": "bigfile-copy gives a block with the same dtype, nmemb, size, rows and attributes, whatever number of files is requested; a run that reports success has done so whatever operations failed on the way, and no run, failed or killed, harms the source.", "quantifier": "all blocks, target file counts, failures of file operations and crash points", "why_tests_cant": "All layouts on both sides.", "anchors": ["utils/bigfile-copy.c"]}
{"id": "C52", "title": "Parallel copy covers every row exactly once", "statement": "The work items handed out by bigfile-copy-mpi tile the rows exactly, for every order in which workers ask for work, and the block they write and close together has exactly the rows of the source and correct checksums, for every interleaving of their file operations.", "quantifier": "all sizes, chunk sizes, numbers of processes, schedules of messages and file operations", "why_tests_cant": "All schedules.", "anchors": ["utils/bigfile-copy-mpi.c"]}
{"id": "C53", "title": "Sampling picks exactly the requested number of distinct rows in order", "statement": "For every random stream, bigfile-sample-mpi's selection picks exactly the requested number of rows of each chunk, strictly increasing.", "quantifier": "all random streams, chunk sizes, sample sizes not exceeding the chunk", "why_tests_cant": "All random streams.", "anchors": ["utils/bigfile-sample-mpi.c"]}
{"id": "C54", "title": "Python slicing agrees with NumPy", "statement": "column[start:stop] returns the rows numpy would return for the same slice of the full array; column[i] returns row i for -size <= i < size; column[start:stop] = array replaces exactly these rows.", "quantifier": "all sizes, starts and stops (any sign or missing)", "why_tests_cant": "All integer pairs.", "anchors": ["bigfile/__init__.py:Column.__getitem__", "bigfile/__init__.py:Column.__setitem__", "bigfile/pyxbigfile.pyx:ColumnLowLevelAPI.read"]}
{"id": "C55", "title": "create_from_array stores the whole array", "statement": "create_from_array writes each row of the array exactly once in order, for any memory limit.", "quantifier": "all arrays and memory limits", "why_tests_cant": "All sizes x limits.", "anchors": ["bigfile/__init__.py:File.create_from_array", "bigfile/pyxbigfile.pyx:ColumnLowLevelAPI.create", "bigfile/pyxbigfile.pyx:ColumnLowLevelAPI.write"]}
{"id": "C56", "title": "Any history of block operations behaves as an array of rows with attributes", "statement": "For any sequence of writes, reads, grows, flushes, attribute operations and close/reopen on a block, every read returns for each row the last data written to it.", "quantifier": "all operation histories", "why_tests_cant": "All histories.", "anchors": ["src/bigfile.c:big_block_write", "src/bigfile.c:big_block_read", "src/bigfile.c:big_block_grow", "src/bigfile.c:big_block_close", "src/bigfile.c:_big_block_open"]}
{"id": "C57", "title": "Concurrent writers to disjoint rows do not interfere", "statement": "If several writers write disjoint row ranges of a block concurrently, then for every interleaving of their file operations the final contents are those of performing the writes one after another in any order. If operations fail or writers are killed, then at every moment the rows outside all ranges are unchanged, each row in a range is a prefix of its new contents followed by the old, and the rows of every writer that has returned 0 are stored.", "quantifier": "all interleavings, any number of writers, any layouts, all failures and kill points", "why_tests_cant": "All schedules and crash points.", "anchors": ["src/bigfile.c:big_block_write", "README.rst"]}
{"id": "C58", "title": "Convenience read returns at most the requested rows and stops at the end", "statement": "big_block_read_simple(start,size) returns min(size, rows remaining) rows starting at start, start counted from the end when negative.", "quantifier": "all blocks, starts, sizes", "why_tests_cant": "All signed pairs.", "anchors": ["src/bigfile.c:big_block_read_simple"]}
{"id": "C59", "title": "Nothing on disk is ever removed", "statement": "No sequence of library calls removes a file or directory, or turns a file into a directory or the reverse; this also holds when calls fail or the process is killed.", "quantifier": "all sequences of calls with all arguments, all faults, all kill points", "why_tests_cant": "All histories and crash points.", "anchors": ["src/bigfile.c:big_file_create", "src/bigfile.c:big_file_create_block", "src/bigfile.c:big_block_flush", "src/bigfile.c:big_block_write"]}
{"id": "C61", "title": "Collective open and create act like the serial ones", "statement": "Opening or creating a block collectively succeeds exactly when the serial call would, returns on every process the same handle the serial call returns, and leaves the same files.", "quantifier": "all files, names, dtypes, sizes, all interleavings of any number of processes", "why_tests_cant": "All schedules and process counts.", "anchors": ["src/bigfile-mpi.c:big_block_mpi_open", "src/bigfile-mpi.c:big_file_mpi_open_block", "src/bigfile-mpi.c:big_file_mpi_create_block", "src/bigfile-mpi.c:_big_block_mpi_create"]}
{"id": "C60", "title": "A damaged attribute file is refused", "statement": "Opening a block whose attribute file does not consist of complete, well-formed lines reports an error, with defined behaviour, and changes nothing; reading the file always ends, whatever bytes it has.", "quantifier": "all contents of the attribute file: any number of well-formed lines followed by any malformed line, or an incomplete one as a killed flush leaves it", "why_tests_cant": "All byte strings and all crash points.", "anchors": ["src/bigfile.c:attrset_read_attr_set_v2", "src/bigfile.c:attrset_write_attr_set_v2"]}
{"id": "C62", "title": "A successful open has every stored attribute", "statement": "When opening a block succeeds, the handle has exactly the attributes stored on disk, whatever operations of the file system fail during the call.", "quantifier": "all blocks, all attributes on disk, all patterns of failed, short or killed operations", "why_tests_cant": "All failure patterns.", "anchors": ["src/bigfile.c:_big_block_open", "src/bigfile.c:attrset_read_attr_set_v1", "src/bigfile.c:attrset_read_attr_set_v2"]}
{"id": "C63", "title": "Appending keeps the old rows and adds the new ones", "statement": "append(array, nfile) makes the column longer by the rows of the array, in nfile new files; the rows that were there and the attributes stay as they are, and the new rows come after them in order.", "quantifier": "all blocks, arrays, dtypes and numbers of files", "why_tests_cant": "All block layouts and sizes.", "anchors": ["bigfile/pyxbigfile.pyx:ColumnLowLevelAPI.append"]}
{"id": "C64", "title": "A sampled block holds rows of the original in order", "statement": "bigfile-sample-mpi makes a block whose rows are different rows of the original, in their original order, as many as were drawn; with ratio 1 all of them. The original does not change. If file operations fail, success is reported only if the sample is complete.", "quantifier": "all blocks, ratios, random streams and orders in which workers do the chunks", "why_tests_cant": "All random streams and schedules.", "anchors": ["utils/bigfile-sample-mpi.c"]}
{"id": "C65", "title": "Record files are made, extended and transferred completely or the failure is reported", "statement": "big_file_create_records with mode w+ makes one block per field, of the field's dtype and number of members, with the given file sizes, no rows and no attributes; with mode a+ it adds the given files to every field's block and keeps rows and attributes; with another mode it fails and does nothing. Other blocks are not changed. Creating, writing and reading records return 0 exactly if every call made for every field (open or create, seek, transfer, grow, close) succeeded, and -1 otherwise. Records written to a newly made file read back identically.", "quantifier": "all record types, file sizes, contents of the directory and failures", "why_tests_cant": "All record types and all patterns of failures of the calls for each field.", "anchors": ["src/bigfile-record.c:big_file_create_records", "src/bigfile-record.c:big_file_write_records", "src/bigfile-record.c:big_file_read_records"]}
{"id": "C66", "title": "Collective transfers respect the aggregation threshold and the number of writers", "statement": "In a collective read or write no process collects more rows than the aggregation threshold, at most as many segments as concurrent writers are made unless the threshold requires more, and processes with few rows are put together.", "quantifier": "all distributions of rows over processes, numbers of writers and thresholds", "why_tests_cant": "All distributions.", "anchors": ["src/bigfile-mpi.c:_throttle_action", "src/mp-mpiu.c:_assign_colors"]}
{"id": "C67", "title": "bigfile-cat prints the rows asked for", "statement": "bigfile-cat with -o start and -c count prints the rows start, start+1, ..., count of them or as many as there are, in order, as raw bytes with -b and as one line of text per row otherwise, and nothing else; it does not change the block. If it fails, what it printed is the beginning of that output.", "quantifier": "all blocks, offsets, counts, buffer sizes and dtypes", "why_tests_cant": "All sizes, buffer sizes and layouts.", "anchors": ["utils/bigfile-cat.c:main", "src/bigfile.c:big_block_read_simple", "src/bigfile.c:big_file_dtype_format"]}
{"id": "C68", "title": "bigfile-set-attr stores the values given, bigfile-get-attr shows what is stored", "statement": "bigfile-set-attr name v1 ... vn with -t dtype stores an attribute of that name with this dtype, n elements and these values; without -t and -n it keeps dtype and number of elements of the attribute it replaces; other attributes and the data of the block do not change; a number of values other than -n is refused and nothing changes. bigfile-get-attr shows the values of the attributes named, or of all attributes ordered by name, and changes nothing. What was set is what is shown.", "quantifier": "all blocks, names, dtypes and values", "why_tests_cant": "All values of all dtypes, and all combinations of existing attributes and options.", "anchors": ["utils/bigfile-set-attr.c:main", "utils/bigfile-get-attr.c:main", "src/bigfile.c:big_file_dtype_parse", "src/bigfile.c:big_file_dtype_format", "src/bigfile.c:attrset_set_attr"]}
{"id": "C69", "title": "Conversions between floating point and integer types preserve representable values", "statement": "When the dtype of an array and of a block are any two of i4, u4, i8, u8, f4 and f8 in any byte orders, a number that the other type can represent is written and read as that number; a number with a fraction stored in an integer type is rounded toward zero, if the result is in the range of that type. A truth value (b1) becomes 0 or 1. Every f4, every 32 bit integer and every integer of at most 53 bits is representable as f8, every integer of at most 24 bits as f4; integers that go to such a type and back give the very bytes.", "quantifier": "all numbers, all pairs of numeric types and byte orders, all arrays and blocks", "why_tests_cant": "There are 2^64 patterns per element and all pairs of types, byte orders and layouts.", "anchors": ["src/bigfile.c:_dtype_convert", "src/bigfile.c:cast", "src/bigfile.c:big_block_write", "src/bigfile.c:big_block_read"]}
{"id": "C70", "title": "Data written and flushed survive failures and kills", "statement": "A program works on an open block; any file operation may fail and the process may be killed at any moment. The library does not crash or hang; an operation that returns 0 has done its work, a failed write has damaged at most its own rows, a failed read or grow no rows. Afterwards, unless a flush was interrupted, the block can be opened and has the size, the attributes and all rows of the last successful flush, with rows that were written since in their new state or damaged. After a failed flush a later flush that returns 0 repairs everything.", "quantifier": "all programs that react to the return codes, all patterns of failures, all moments of a kill", "why_tests_cant": "A kill can come at any of unboundedly many file operations and failures can be combined with any history; tests try a few.", "anchors": ["src/bigfile.c:big_block_write", "src/bigfile.c:big_block_read", "src/bigfile.c:big_block_grow", "src/bigfile.c:big_block_flush", "src/bigfile.c:_big_block_open", "src/bigfile.c:attrset_write_attr_set_v2"]}
{"id": "C71", "title": "A block shared by several processes is one array", "statement": "Several processes open or create a block together and use it in any order: collective writes and reads of any distribution of rows over the processes, attributes, growing, flushing, closing and opening again with another number of processes. Everything behaves like one array of rows with attributes: a collective write stores the rows of all processes in rank order, a read returns to each process its share, in every interleaving, and nothing hangs. Sessions of one process and of several can follow each other in any order; each sees what those before it stored.", "quantifier": "all histories, all numbers of processes, all distributions, all interleavings, all sequences of serial and collective sessions", "why_tests_cant": "Schedules, distributions and histories multiply; the tests run a few with two or four processes.", "anchors": ["src/bigfile-mpi.c:big_block_mpi_write", "src/bigfile-mpi.c:big_block_mpi_read", "src/bigfile-mpi.c:big_block_mpi_grow", "src/bigfile-mpi.c:big_block_mpi_flush", "src/bigfile-mpi.c:big_block_mpi_close", "src/bigfile-mpi.c:big_file_mpi_open_block", "src/bigfile-mpi.c:_big_file_mpi_create_block"]}
{"id": "C72", "title": "Records of several processes form one table", "statement": "The blocks of a record type are made by several processes together, or by one. Then records are written, read and space for more is added, in any order, each operation by one process or by any number of processes with shares of any sizes. All operations return 0 on every process in every interleaving; a write stores the records of all processes in rank order, a read gives to each process its share of the records as last written, whoever wrote them in whatever shares; memory outside the records is not changed; other blocks keep what they hold.", "quantifier": "all record types, all histories, all numbers of processes, all distributions of records, all interleavings", "why_tests_cant": "Record layouts, distributions, schedules and histories multiply; the tests use one or two of each.", "anchors": ["src/bigfile-mpi.c:big_file_mpi_create_records", "src/bigfile-mpi.c:big_file_mpi_write_records", "src/bigfile-mpi.c:big_file_mpi_read_records", "src/bigfile-record.c:big_file_write_records", "src/bigfile-record.c:big_file_read_records", "src/bigfile-record.c:big_file_create_records"]}
{"id": "C73", "title": "All processes agree on opening or making a file", "statement": "When several processes open or make a file together, all of them return, with the same code: the one rank 0 got, whatever failed there. If it is 0, all have the name of the file. Opening changes nothing; making it makes only the missing directories on the way.", "quantifier": "all numbers of processes, all names and file systems, all interleavings, all failures at rank 0", "why_tests_cant": "If one process got another code than the others, they would wait for each other for ever in the next call; that depends on failures and schedules.", "anchors": ["src/bigfile-mpi.c:big_file_mpi_open", "src/bigfile-mpi.c:big_file_mpi_create", "src/bigfile-mpi.c:big_file_mpi_broadcast_anyerror"]}
{"id": "C74", "title": "bigfile-create stores its input", "statement": "bigfile-create makes a block whose rows are the complete rows of its standard input, in order, in one file and without attributes, and touches nothing else. An incomplete row at the end is dropped. (As it is: with an input shorter than a row the block claims 2^64-1 rows; write errors are ignored; with a buffer smaller than a row it never ends.)", "quantifier": "all inputs, all dtypes and row widths, all buffer sizes, all names and file systems with room for the block", "why_tests_cant": "The rows reach the block in rounds whose number and size depend on the buffer and on the input, through a handle that claims 2^64-1 rows; whether any split loses, repeats or moves a row cannot be tried for all of them.", "anchors": ["utils/bigfile-create.c:main", "src/bigfile.c:big_block_write", "src/bigfile.c:big_block_seek", "src/bigfile.c:big_block_close"]}
{"id": "C75", "title": "A header that was cut short is never taken for another one", "statement": "If the header file of a block holds only a beginning of what the library wrote for a block that it can read back (a flush was killed, the disk was full), then whatever file operations fail while the block is opened, opening either fails or shows exactly the dtype, members, files, sizes and checksums of the complete header; it changes nothing on disk. In particular, after a flush with any failures and a kill at any moment, a block that can be opened has the old or the new layout, never a mixture. If the data files and attributes are complete, it also has all rows, and its attributes unless the file with them could not be opened.", "quantifier": "all layouts, all lengths of the beginning, all moments of a kill, all patterns of failures while flushing and opening", "why_tests_cant": "A number that is cut is a smaller number, and a line that is cut may still scan; there are as many cuts as bytes, for every layout.", "anchors": ["src/bigfile.c:_big_block_open", "src/bigfile.c:big_block_flush"]}
{"id": "C76", "title": "bigfile-ls lists exactly the blocks", "statement": "bigfile-ls prints one line for every directory below the file whose names do not start with a dot and which has a complete header, at any depth and also inside other blocks, each exactly once, sorted by name with outer directories before what they contain; nothing else is printed and nothing on disk changes. With -l a line has the name, dtype, members, number of rows, folded checksum, number of files and path of that block. With a block named, it prints the line of that block.", "quantifier": "all directory trees, all names, all headers", "why_tests_cant": "The set of trees is unbounded: nested blocks, directories with torn headers, hidden names, and depth.", "anchors": ["utils/bigfile-ls.c:main", "utils/bigfile-ls.c:listbigfile_r", "src/bigfile.c:sysvsum"]}
{"id": "C77", "title": "bigfile-check tells whether stored data still match their checksums", "statement": "For every complete block bigfile-check compares the sum of all bytes of its rows with the sum of the checksums in its header: it prints a line exactly when the two differ after folding to 16 bits. A block whose checksums are those of its files is accepted. If one byte of a data file of an accepted block is then replaced by any other value, the block is reported. Without block names all blocks of the file are checked, each once. (As it is: a block whose header was cut short is accepted silently; a block in which a row was written twice is reported although nothing is wrong; the exit code is always 0.)", "quantifier": "all blocks, all contents, all positions and values of a damaged byte, all file trees", "why_tests_cant": "The byte sums are folded to 16 bits with a carry that wraps; that no single change is hidden by the folding has to hold for every sum and every pair of byte values.", "anchors": ["utils/bigfile-check:check", "utils/bigfile-cat.c:main", "utils/bigfile-ls.c:main", "src/bigfile.c:sysvsum"]}
{"id": "C78", "title": "bigfile-rename and bigfile-rm move and remove whole blocks", "statement": "bigfile-rename to a name that does not exist moves the directory of the block with everything in it: whatever fails and whenever it is killed, either nothing has changed or everything is at the new name, and every block in it can be read there with the same rows and attributes. bigfile-rm removes only entries at or below the directory of the block; other blocks stay as they are, whatever fails; if it reports success nothing is left; without failures it succeeds.", "quantifier": "all file trees, all blocks and names, all failures and all points at which the process is killed", "why_tests_cant": "Every combination of failing operations and every point of a kill would have to be tried, on every tree.", "anchors": ["utils/bigfile-rename", "utils/bigfile-rm"]}
{"id": "C79", "title": "bigfile-repartition never loses a block", "statement": "When a block is repartitioned into n files, its rows and attributes are at every moment in the block or in its backup (the name with -REPBAK), whatever fails and whenever the job is killed; nothing else in the file system changes; if the job gets to its end the block has the same rows and attributes in n files and the backup is gone. Without failures it gets to its end. (As it is: only with -v, otherwise the block is left at the name of its backup; blocks nested in the block are removed; if the attribute file cannot be opened for reading the attributes are lost.)", "quantifier": "all blocks in which all rows are written, all numbers of files, all file trees, all failures that are reported and all points at which the job is killed", "why_tests_cant": "The job renames, copies and removes; a kill can fall between any two of its file operations, and each can fail.", "anchors": ["utils/bigfile-repartition:repart", "utils/bigfile-rename", "utils/bigfile-rm", "utils/bigfile-copy.c:main"]}
{"id": "C80", "title": "Complex numbers keep their value", "statement": "A complex number written to a block of a complex type (c8 or c16, either byte order) whose parts can represent its real and imaginary part, and read back into an array of a complex type that can, has its real and imaginary part. (As it is: only if the byte order of the first array is that of the second; and the block itself holds the real part first, as its dtype says, only if its byte order is that of the array written.)", "quantifier": "all bit patterns of the real and imaginary part, all pairs of complex types and byte orders of block and arrays", "why_tests_cant": "2^64 to 2^128 bit patterns for each combination of types and byte orders.", "anchors": ["src/bigfile.c:byte_swap", "src/bigfile.c:cast", "src/bigfile.c:_dtype_convert"]}
{"id": "C81", "title": "Rows that were never written", "statement": "In a block that was created and then used through any history of writes, reads, growing, operations on attributes that the attribute file can represent, flushes and reopenings (with at most 16^6 files), a read of rows inside the block succeeds exactly if for each of its rows that row or a later row of the same data file has been written; it then gives what was last written to each row and zeros for the rows that never were. Otherwise it returns -1 and changes nothing outside the elements of the array. Bytes of old data files of the same name never show.", "quantifier": "all blocks, divisions into files, histories of any length, arrays and element types, in particular all sets of rows that were never written", "why_tests_cant": "Any subset of the rows may be unwritten, in any division into files, after any history.", "anchors": ["src/bigfile.c:big_block_read", "src/bigfile.c:big_block_write", "src/bigfile.c:_big_block_create_internal", "src/bigfile.c:_big_block_grow_internal"]}
{"id": "C82", "title": "Readers alongside a writer", "statement": "While one handle works on a block (writing, reading, growing, attributes, flushing, reopening), other programs may at any moments open the block, read rows and attributes through their own handles, flush or close them, or pass copies of them to other processes. Opening always succeeds; a reader finds as many rows as the header recorded when it opened the block, in every row what the writer wrote last (flushed or not), and the attributes that were stored at that moment. Nothing a reader does has an effect on the block, on the writer or on other readers.", "quantifier": "all interleavings of any number of operations of a writer and of any number of readers, at the granularity of library calls", "why_tests_cant": "The number of readers, the moments at which they join and the interleavings are unbounded.", "anchors": ["src/bigfile.c:big_block_open", "src/bigfile.c:big_block_read", "src/bigfile.c:big_block_flush", "src/bigfile.c:big_block_close", "src/bigfile.c:_big_block_pack", "src/bigfile.c:_big_block_unpack"]}
{"id": "C83", "title": "In Python the attributes of a block are a dictionary", "statement": "Setting, getting and deleting items of block.attrs, testing membership and listing the keys behave as on a dictionary from names to values: what was set last is what comes back (strings as strings, lists of strings as lists, arrays with the same type and bytes), a missing name raises KeyError, keys come sorted and without duplicates, names with blanks raise an error and change nothing. After the block is closed and opened again the dictionary is the same.", "quantifier": "all attribute sets, all histories of operations of any length, all names and values", "why_tests_cant": "Histories, names and values are unbounded; every answer depends on the whole history.", "anchors": ["bigfile/pyxbigfile.pyx:AttrSet.__getitem__", "bigfile/pyxbigfile.pyx:AttrSet.__setitem__", "bigfile/pyxbigfile.pyx:AttrSet.__delitem__", "bigfile/pyxbigfile.pyx:AttrSet.__contains__", "bigfile/pyxbigfile.pyx:AttrSet.keys"]}
{"id": "C84", "title": "In Python several blocks with the same number of rows are one table of records", "statement": "Opening blocks as a Dataset gives a table whose records have the blocks as columns, in the order given, with the blocks' types and members packed one after the other; record q is row q of each block. Slicing, indexing, assigning and appending behave as on a NumPy array of these records: they give or store exactly the records NumPy selects, or raise for steps, indices outside of the table, arrays of the wrong length and records appended to no file. Columns keep their attributes and other blocks are not touched. Blocks of different lengths are refused and no file changes.", "quantifier": "all files and lists of columns, all histories of slices, indices, assignments and appends of any length, all contents", "why_tests_cant": "Tables, slices and histories are unbounded; every answer depends on all earlier operations and on all columns.", "anchors": ["bigfile/__init__.py:Dataset", "bigfile/pyxbigfile.pyx:Dataset", "src/bigfile-record.c:big_file_read_records", "src/bigfile-record.c:big_file_write_records", "src/bigfile-record.c:big_file_create_records"]}
{"id": "C85", "title": "In Python several processes make one block from a distributed array", "statement": "FileMPI.create_from_array, called by all processes of a communicator, each with its part of an array, makes a block with the rows of all parts in rank order, in the number of files asked for. However the processes are scheduled, the call ends, every process gets a column that shows all of these rows, and the stored checksums are those of the bytes written. If it cannot be done, every process gets an exception.", "quantifier": "any number of processes, parts of any sizes (also none), any memory limit and number of files, all interleavings of the file operations of the processes", "why_tests_cant": "The number of interleavings of file operations is unbounded, as are the numbers of processes, pieces and files; a wrong offset shows only for particular sizes of the parts.", "anchors": ["bigfile/__init__.py:FileMPI", "bigfile/__init__.py:ColumnMPI", "bigfile/pyxbigfile.pyx:ColumnLowLevelAPI", "src/bigfile.c:big_block_write"]}
{"id": "C86", "title": "Parallel copying and sampling survive failures and killed processes", "statement": "While bigfile-copy-mpi or bigfile-sample-mpi runs on any number of processes, any file operation may fail, come to a partial end, or be the last thing a process does because it is killed. At every moment, however the processes are scheduled, the source block is as it was, no file but the data files of the new block has changed, no process has done anything undefined, and the rows of every piece of work that was reported to the server as done are in the new block. If all processes reach the end and no piece was reported as failed, all of them see the complete copy (or sample); if they then close the new block, again with failures and kills, the source and other files are still as they were, and when closing succeeds the stored block has exactly these rows and the right checksums.", "quantifier": "all source blocks, numbers of processes, sizes of pieces, interleavings of messages and file operations, and all patterns of failures and kills", "why_tests_cant": "Each operation of each process can fail or be the last one, in any interleaving; the combinations are unbounded.", "anchors": ["utils/bigfile-copy-mpi.c:server", "utils/bigfile-copy-mpi.c:slave", "utils/bigfile-sample-mpi.c:server", "utils/bigfile-sample-mpi.c:slave", "src/bigfile-mpi.c:big_block_mpi_close"]}
{"id": "C87", "title": "The parallel copy and sampling tools, from start to exit", "statement": "bigfile-copy-mpi, run on two or more processes, opens the source, makes the new file and the new block, copies the attributes and the rows, and closes both blocks. Whatever the number of processes, the sizes and the interleaving of their messages and file operations, it ends and exits with 0; the new block then has the rows and the attributes of the source in as many files as requested, the source is as it was, and no other file has changed (directories on the way to the new block are made). bigfile-sample-mpi does the same with a choice of rows of the source in their order that depends only on its random numbers.", "quantifier": "all source blocks whose rows were written, all names, numbers of files, buffer sizes of at least a row, numbers of processes from two on, random numbers, and all interleavings of messages and file operations", "why_tests_cant": "The program is a sequence of collective phases and of a work queue, each with unboundedly many interleavings; a run sees one of them.", "anchors": ["utils/bigfile-copy-mpi.c:main", "utils/bigfile-sample-mpi.c:main", "utils/bigfile-copy-mpi.c:server", "utils/bigfile-copy-mpi.c:slave", "src/bigfile-mpi.c:big_file_mpi_create_block", "src/bigfile-mpi.c:big_block_mpi_close"]}
{"id": "C88", "title": "The benchmark program writes, checks and grows a block", "statement": "bigfile-iosim create, on any number of processes, with any number of writers and files, aggregated or not, makes the block TestBlock with as many rows as requested, each row holding its own number in every member; bigfile-iosim update stores the same into an existing block and changes nothing else; bigfile-iosim read ends normally if every row holds its own number and aborts otherwise, and changes nothing; bigfile-iosim grow appends rows numbered from 0 and keeps the old ones. Any sequence of such runs on changing numbers of processes ends as this says, whatever the interleaving. Reading after growing reports corrupted data although nothing is corrupted, and a missing file is not reported by the exit code.", "quantifier": "all file names, numbers of members, rows, writers and files, numbers of processes, memories, sequences of runs, and interleavings of messages and file operations", "why_tests_cant": "The shares of the processes depend on their number and on the size; a run sees one number of processes and one interleaving, and the program is its own check, so an error in both directions stays unseen.", "anchors": ["utils/bigfile-iosim.c:main", "utils/bigfile-iosim.c:iosim", "src/bigfile-mpi.c:big_block_mpi_write", "src/bigfile-mpi.c:big_block_mpi_read", "src/bigfile-mpi.c:big_block_mpi_grow_simple"]}
{"id": "C89", "title": "A shared block survives failures and kills", "statement": "Several processes open a block together and write, read, set attributes, grow and flush it collectively, deciding on the answers they get. File operations of any process may fail or be cut short, in any pattern, and everything may be killed at any moment. No process crashes or waits for ever; every collective write, read, growing and flush gives all processes the same verdict; a failed write loses only its own rows, and nothing on disk but files of the block ever changes; if one process saw no error code, every answer of every process is the right one and the content is as if nothing had failed. Once a flush has answered 0, any number of processes can open the block later, whatever happens and whenever the kill, and find the size, attributes and every row not written since. After a flush that failed, a second flush stores wrong checksums and does not store the attributes.", "quantifier": "all block contents, numbers of processes, writers and thresholds, adaptive collective programs, patterns of failures on each process, moments of the kill, and interleavings of messages and file operations", "why_tests_cant": "The failures of different processes combine with each other and with the schedule of the writers; a test provokes one failure on one process in one schedule.", "anchors": ["src/bigfile-mpi.c:big_block_mpi_write", "src/bigfile-mpi.c:big_block_mpi_read", "src/bigfile-mpi.c:_throttle_action", "src/bigfile-mpi.c:big_block_mpi_grow", "src/bigfile-mpi.c:big_block_mpi_flush", "src/bigfile-mpi.c:big_block_mpi_open"]}
{"id": "C90", "title": "Collective transfers of records survive failures and kills", "statement": "Several processes make, write records to, read them from, or extend, the blocks of all fields of a record type together, while file operations of any process fail or are cut short, in any pattern, and everything may be killed at any moment. No process crashes or waits for ever; all get the same code, 0 or -1, and nothing outside the blocks of the fields changes. With 0 the result is the one without failures. Otherwise, and after a kill, the fields up to some field are complete, those after it untouched, and of the one in between only the rows that were being written, or the header file, may be damaged; reading changes nothing on disk.", "quantifier": "all record types, numbers of processes and records, contents of the blocks, patterns of failures on each process, moments of the kill, and interleavings", "why_tests_cant": "Every combination of failures in opening, transferring and closing each field on each process leads to a different path; a test provokes one of them.", "anchors": ["src/bigfile-mpi.c:big_file_mpi_write_records", "src/bigfile-mpi.c:big_file_mpi_read_records", "src/bigfile-mpi.c:big_file_mpi_create_records", "src/bigfile-mpi.c:big_block_mpi_write", "src/bigfile-mpi.c:big_block_mpi_read", "src/bigfile-mpi.c:big_block_mpi_grow", "src/bigfile-mpi.c:big_block_mpi_close"]}
{"id": "C91", "title": "Collective transfers that do not fit the block are refused everywhere", "statement": "Several processes write to, or read from, a block together, and their rows together (fewer than 2^31) are more than those left from the row they all point at. Whatever file operations of any process fail or are cut short, every process returns, all with the same code, which is not 0, and with the message of one of them. Reading changes no file. Writing changes at most the rows from that row to the end of the block. Unlike a write of a single process (C08) it may change these rows, even to rows of a process meant to go elsewhere: a caller must not take the refusal for \"nothing happened\".", "quantifier": "all numbers of processes, rows of each, positions, array dtypes to which the elements of the block convert, concurrency settings, patterns of failures without kills, and interleavings", "why_tests_cant": "Which process is refused, and which writes where before the errors are exchanged, depends on how the rows fall into segments and on the schedule; a test sees one schedule.", "anchors": ["src/bigfile-mpi.c:big_block_mpi_write", "src/bigfile-mpi.c:big_block_mpi_read", "src/bigfile-mpi.c:_throttle_action", "src/bigfile-mpi.c:_aggregated", "src/bigfile.c:big_block_seek_rel", "src/bigfile.c:big_block_write", "src/bigfile.c:big_block_read"]}
{"id": "C92", "title": "Collective functions do not rely on collective calls to synchronise", "statement": "MPI lets a process leave MPI_Bcast, MPI_Gatherv or MPI_Scatterv as soon as it has what it is to receive, while others have not arrived yet. What is promised for making, growing, writing and reading a block together (C43, C45, C46, C47, C91) holds in all such executions too: every execution ends with all processes returned, all with the same code; the rows stored and the rows received are those of C45 and C46; each process makes only files of its share; at every moment nothing but the new files, or the rows to be written, has changed, and reading changes nothing.", "quantifier": "all numbers of processes, rows of each, positions, dtypes, concurrency settings, patterns of failures without kills, interleavings, and all ways of leaving rooted collective calls early", "why_tests_cant": "Which calls synchronise depends on the MPI library, message sizes and timing; tests on one machine see the calls leave in one way.", "anchors": ["src/bigfile-mpi.c:big_block_mpi_write", "src/bigfile-mpi.c:big_block_mpi_read", "src/bigfile-mpi.c:_throttle_action", "src/bigfile-mpi.c:_aggregated", "src/bigfile-mpi.c:big_file_mpi_broadcast_anyerror"]}
{"id": "C93", "title": "Copying a block of which rows are missing", "statement": "bigfile-copy reports success only if every row of the source block is there, and then the copy has the bytes of every row, also of rows that nobody wrote but that lie before the end of their file (they read as zeros). If the bytes of a row are missing, because a data file ends before it, the program reports failure, whatever else happens. Without failures it succeeds exactly if no row is missing. The source is as it was in any case.", "quantifier": "all blocks, closed at any point of their history, with any rows written, all layouts of source and copy, buffer sizes, patterns of failures and kills", "why_tests_cant": "Whether a row that nobody wrote is there depends on which later rows of the same file were written; tests copy blocks that are complete.", "anchors": ["utils/bigfile-copy.c:main", "src/bigfile.c:big_block_read_simple", "src/bigfile.c:big_block_read", "src/bigfile.c:big_block_write"]}
{"id": "C94", "title": "What the programs may change on the disk", "statement": "Listing the blocks of a file, bigfile-ls, bigfile-get-attr, bigfile-cat and bigfile-check change nothing on the disk. bigfile-set-attr can change only the file with the attributes of the block it is given: never the header, never a row. bigfile-copy and bigfile-create can change only the files of the block they are to make, and make directories on the way to it. This holds whatever is on the disk, damaged blocks included, whatever the arguments are, whatever fails, and also if the program is killed.", "quantifier": "all disks, well-formed or not, all arguments (for the programs that write: paths of at most 8192 characters), all patterns of failures, silent losses and kills; executions that do not run into undefined behaviour or loop for ever", "why_tests_cant": "The claim is about every file that is not touched, on every disk, at every point where the program can be killed; tests look at files they made, after a normal end.", "anchors": ["utils/bigfile-ls.c:main", "utils/bigfile-get-attr.c:main", "utils/bigfile-set-attr.c:main", "utils/bigfile-cat.c:main", "utils/bigfile-copy.c:main", "utils/bigfile-create.c:main", "utils/bigfile-check", "src/bigfile.c:big_file_list", "src/bigfile.c:big_block_close"]}
{"id": "C95", "title": "The words of a command line mean what the usage says", "statement": "bigfile-copy, bigfile-copy-mpi, bigfile-iosim, bigfile-cat, bigfile-create, bigfile-set-attr, bigfile-get-attr and bigfile-ls take their options from the command line in any spelling (`-n 2`, `-n2`), in any order, ended by `--` or by the first operand, and with GNU's getopt also mixed with the operands. An option that is given more than once counts with its last value; one that is not given has the default of the usage; the operands are the files, blocks and values in the order of the usage. A wrong number of operands or an unknown option ends the program with status 1 (bigfile-iosim: 0) and changes nothing. bigfile-repartition calls bigfile-copy with the words it means. A value of bigfile-set-attr that is negative is stored like any other.", "quantifier": "all command lines written as the usage allows: any number of options in any order and spelling, any operands; both kinds of getopt (GNU and POSIX)", "why_tests_cant": "Command lines are unbounded lists of words of any form, and the two kinds of getopt differ; tests run the programs with one or two forms on one system.", "anchors": ["utils/bigfile-copy.c:main", "utils/bigfile-cat.c:main", "utils/bigfile-create.c:main", "utils/bigfile-set-attr.c:main", "utils/bigfile-get-attr.c:main", "utils/bigfile-ls.c:main", "utils/bigfile-copy-mpi.c:main", "utils/bigfile-iosim.c:main", "utils/bigfile-repartition:repart"]}
{"id": "C96", "title": "A directory of blocks can be used as a file of its own", "statement": "In Python, indexing a file with a key that ends with a slash, as in file['a/'], gives the file whose directory is `a` in the file's directory, or an exception if there is none; slashes at the beginning of the key do not count. Opening block `b` of it is opening block `a/b` of the file, and it lists exactly the names that follow `a/` in the file's own list. The same holds of files opened with MPI.", "quantifier": "all files, keys with any number of names and slashes, block names and directory trees; opening under any failures", "why_tests_cant": "Keys and trees are unbounded, and the two ways of joining paths (Python's and the library's) must agree on all of them; tests use one key on one tree.", "anchors": ["bigfile/__init__.py:FileBase.__getitem__", "bigfile/__init__.py:File.subfile", "bigfile/__init__.py:FileMPI.subfile", "src/bigfile.c:_path_join", "src/bigfile.c:big_file_list"]}
{"id": "C97", "title": "A Python file object knows its blocks", "statement": "The blocks of a File (also keys(), iteration and `in`) are the blocks on the disk, sorted by name: when first asked for, after a block has been created through the object, and at any later time. A pickled and unpickled File has the same directory and the same blocks, and unpickling raises an exception if the directory cannot be opened.", "quantifier": "all files, directory trees, histories of creations through this object and by others", "why_tests_cant": "What the object remembers and what is on the disk can differ after any history of changes by others; tests look at the list right after opening.", "anchors": ["bigfile/__init__.py:File.blocks", "bigfile/__init__.py:File.create", "bigfile/__init__.py:FileBase.__getstate__", "bigfile/__init__.py:FileBase.__setstate__", "bigfile/pyxbigfile.pyx:FileLowLevelAPI.__setstate__", "bigfile/pyxbigfile.pyx:FileLowLevelAPI.list_blocks"]}
{"id": "C98", "title": "A column can be sent to another process", "statement": "A Python column that is pickled, whatever is pending in it, and unpickled in another process stands for the same block: it has the same rows, attributes and pending changes, and can be used in place of the original. Copies do not get in each other's way: when a copy goes away nothing is lost that was stored through the original after it had been pickled.", "quantifier": "all columns and their histories, all machines' memory contents, all changes to the block between pickling and the end of the copy", "why_tests_cant": "The pending state of the column and what happens between pickling and the end of the copy (garbage collection) are unbounded; tests pickle a fresh column and read from the copy.", "anchors": ["bigfile/pyxbigfile.pyx:ColumnLowLevelAPI.__getstate__", "bigfile/pyxbigfile.pyx:ColumnLowLevelAPI.__setstate__", "bigfile/pyxbigfile.pyx:ColumnLowLevelAPI.__dealloc__", "src/bigfile.c:_big_block_pack", "src/bigfile.c:_big_block_unpack"]}
{"id": "C99", "title": "Processes that share a Python file object agree on its blocks", "statement": "FileMPI(comm, filename), FileMPI(comm, filename, create=True), subfile(key) and create(blockname, ...) do the same on all processes: all get an object for the same directory or all raise an exception, all objects have the same list of blocks, and this is the list of the blocks on the disk, each once and in order, including a block that create has just made. Opening changes nothing on the disk; creating makes only the directories on the way.", "quantifier": "all numbers of processes, all directory trees, all file names, keys and block names, all shapes and numbers of rows of the new block", "why_tests_cant": "The directory trees and the numbers of processes are unbounded, and agreement of all processes is a property of the collective calls, not of the one result a test looks at.", "anchors": ["bigfile/__init__.py:FileMPI.__init__", "bigfile/__init__.py:FileMPI.refresh", "bigfile/__init__.py:FileMPI.create", "bigfile/__init__.py:FileMPI.subfile", "bigfile/__init__.py:ColumnMPI.create", "bigfile/pyxbigfile.pyx:FileLowLevelAPI.list_blocks"]}
{"id": "C100", "title": "Other programs find the documented files, and can make them", "statement": "After a flush or after closing, the directory of a block holds exactly what README.rst documents, whatever was done to the block before: a text file header with the dtype, the elements per row, the number of files and for every file its name, its rows and its checksums, and data files named by six hexadecimal digits that hold their rows in order, in that dtype, from the first one to the last one that was written, zeros for rows that were skipped, and nothing else; and a text file attr-v2 with a line for every stored attribute, sorted by name, with its name, dtype, number of elements and bytes in hexadecimal. So a program that reads the data files one after the other (example/ftn.f03) gets all rows in order if all were written. Conversely, if another program makes such files, the library opens them as a block with these rows and attributes, also if the lines of attributes are in another order or if there is no file of attributes.", "quantifier": "all divisions into files, all dtypes and numbers of elements per row, all histories of writes, reads, growing, attribute operations, flushes and close-and-reopen, all contents of files made elsewhere", "why_tests_cant": "The histories and the sizes are unbounded; tests read the data back through the library, where an error of the layout that is made in both directions cannot be seen.", "anchors": ["src/bigfile.c:big_block_write", "src/bigfile.c:big_block_flush", "src/bigfile.c:_big_block_create", "src/bigfile.c:big_block_grow", "src/bigfile.c:_big_block_open", "README.rst", "example/ftn.f03"]}
{"id": "C101", "title": "The blocks of a file are independent tables", "statement": "A program creates any number of blocks in a file and uses them in any order: reads, writes, grows, sets and looks up attributes, flushes, closes and opens them again. As long as no block is put in the directory of another one or inside one of its files, every operation succeeds and is answered according to what was done to that block and to no other. A block that was flushed or closed has, from then on and whatever is done to other blocks, the documented files with what it held. If the file was an empty directory at the start and the names are plain (no component starts with a dot or is the name of a file of a block), listing it gives exactly the blocks that were created, except those inside another block, each once.", "quantifier": "all numbers of blocks, all names, dtypes and divisions into files, all histories of creating (also again under the same name) and using them, in any order", "why_tests_cant": "The histories, the number of blocks and their sizes are unbounded; tests use one block at a time.", "anchors": ["src/bigfile.c:big_file_create_block", "src/bigfile.c:_big_block_create", "src/bigfile.c:_big_file_mksubdir_r", "src/bigfile.c:big_file_list", "src/bigfile.c:big_block_write", "src/bigfile.c:big_block_flush", "src/bigfile.c:big_file_open_block"]}
{"id": "C102", "title": "A failure or a kill in one block of a file leaves the other blocks alone", "statement": "A program creates any number of blocks in a file and uses them in any order, going on as it likes after errors. Any file operation may fail and report it, and the process may be killed at any moment. The program runs without undefined behaviour and without hanging. What it leaves of a block is decided by the operations on that block alone: a block whose last flush worked, or that was created and not flushed since, is opened by a later process with the rows and attributes that were stored, whatever failed or was interrupted in other blocks or while other blocks were created. A stored block that the program does not touch is the same table afterwards. Only the block whose creation or flush failed or was interrupted can be damaged.", "quantifier": "all programs, numbers of blocks, names (no block in the directory of another or inside one of its files), all patterns of reported failures, all points at which the process is killed", "why_tests_cant": "Failure patterns, kill points and histories are unbounded, and the damage shows only in another block and in a later process.", "anchors": ["src/bigfile.c:big_file_create_block", "src/bigfile.c:_big_block_create", "src/bigfile.c:_big_file_mksubdir_r", "src/bigfile.c:big_block_write", "src/bigfile.c:big_block_flush", "src/bigfile.c:big_block_grow", "src/bigfile.c:big_file_open_block"]}
{"id": "C103", "title": "The blocks of a file shared by several processes are independent tables", "statement": "The processes of a communicator create any number of blocks in a file and open, use and close them together, in any order: collective writes, reads, growing, attributes, flushes. As long as no block is put in the directory of another one or inside one of its files, every operation succeeds on every process and is answered according to what was done to that block and to no other, in every interleaving of the processes; no execution hangs; and every block that was closed is stored with what was done to it, whatever is done to other blocks later.", "quantifier": "all numbers of processes and blocks, all names, dtypes and divisions into files, all histories of creating, opening, using and closing, all interleavings of the processes", "why_tests_cant": "Histories, numbers of processes and interleavings are unbounded; tests run one block with a few processes.", "anchors": ["src/bigfile-mpi.c:big_file_mpi_create_block", "src/bigfile-mpi.c:big_file_mpi_open_block", "src/bigfile-mpi.c:big_block_mpi_write", "src/bigfile-mpi.c:big_block_mpi_read", "src/bigfile-mpi.c:big_block_mpi_grow", "src/bigfile-mpi.c:big_block_mpi_flush", "src/bigfile-mpi.c:big_block_mpi_close"]}
{"id": "C104", "title": "Failures and kills while several processes share a file of many blocks", "statement": "The processes of a communicator create blocks in a file and use them together while any file operation of any process may fail, and all may be killed at any moment. No process crashes or waits for ever; all processes get the same verdict of every operation; a failure or a kill during an operation on one block leaves every other block as it was; afterwards any number of processes can open every block whose header and attribute file are intact and find the rows and attributes that were stored; and if a single process saw no error code, the answers of all processes and all blocks are as if nothing had failed.", "quantifier": "all numbers of processes and blocks, all collective programs that make and use blocks and react to the answers, all patterns of failures in all processes, all interleavings, all moments of a kill", "why_tests_cant": "Programs, failures, interleavings and kill points are unbounded; tests run without failures.", "anchors": ["src/bigfile-mpi.c:big_file_mpi_create_block", "src/bigfile-mpi.c:big_file_mpi_open_block", "src/bigfile-mpi.c:big_block_mpi_write", "src/bigfile-mpi.c:big_block_mpi_read", "src/bigfile-mpi.c:big_block_mpi_grow", "src/bigfile-mpi.c:big_block_mpi_flush", "src/bigfile-mpi.c:_big_file_mpi_create_block", "src/bigfile.c:_big_file_mksubdir_r"]}
{"id": "C105", "title": "The life of a block through any number of sessions that fail and are killed", "statement": "One after another, processes alone or groups of processes open a block, use it while file operations fail, and come to their end or are killed at any moment, any number of times. As long as no flush failed or was interrupted, the block can be opened again; in any case it is in a state that the visits with the answers they got may lead to. The recorded size never shrinks, and every row that was stored and that no visit wrote is found as it was, however many of the visits failed or were killed.", "quantifier": "all histories of visits by one or several processes, all programs that react to the answers, all patterns of failures, all interleavings, all moments of a kill in each visit", "why_tests_cant": "The number of visits, the programs, the failures and the kill points are all unbounded.", "anchors": ["src/bigfile.c:_big_block_open", "src/bigfile.c:big_block_write", "src/bigfile.c:big_block_read", "src/bigfile.c:big_block_flush", "src/bigfile.c:_big_block_grow_internal", "src/bigfile-mpi.c:_big_block_mpi_open", "src/bigfile-mpi.c:big_block_mpi_write", "src/bigfile-mpi.c:big_block_mpi_read", "src/bigfile-mpi.c:big_block_mpi_flush"]}
{"id": "C106", "title": "The buffers in which text is built are large enough", "statement": "Storing attributes, printing elements and making paths never writes beyond the memory set aside for the text: the text of an element of any dtype and any value has at most 28 characters; the human-readable part of an attribute stays below 32 bytes per element; names of data files and joined paths fit their buffers.", "quantifier": "all dtypes, all bytes of elements, all numbers of elements, all names and paths", "why_tests_cant": "The buffers have fixed sizes chosen by hand; only a bound over all values shows that no value overruns them.", "anchors": ["src/bigfile.c:big_file_dtype_format", "src/bigfile.c:attrset_write_attr_set_v2", "src/bigfile.c:_path_join", "src/bigfile.c:_big_file_open_a_file", "src/bigfile-mpi.c:big_file_mpi_open_block", "utils/bigfile-cat.c:main", "utils/bigfile-get-attr.c:print_attr"]}
{"id": "C107", "title": "The life of a file of many blocks through any number of processes that fail and are killed", "statement": "One process after another opens some of the blocks of a file, creates more and uses them while file operations fail, and comes to its end or is killed at any moment, any number of times; what the next one does may depend on how the earlier ones ended. What becomes of each block is decided by the operations on that block and the answers they gave. A block whose header and attribute file are intact can be opened; it stays so through every process that does not create or flush this block, however it fails or is killed, and through every process that ended without an error code. A block that was interrupted while it was created can be created again. Every stored row that no process wrote is found as it was, and a stored block that no process used is the same.", "quantifier": "all files, all histories of any number of processes with any programs, all failures of file operations that are reported, all kill points", "why_tests_cant": "Damage done to a block by one interrupted process may show only several processes later and in another block; tests follow a few histories.", "anchors": ["src/bigfile.c:big_file_create_block", "src/bigfile.c:big_file_open_block", "src/bigfile.c:big_block_write", "src/bigfile.c:big_block_grow", "src/bigfile.c:big_block_flush", "src/bigfile.c:_big_file_mksubdir_r"]}
{"id": "C108", "title": "The life of a file of many blocks through any number of groups of processes that fail and are killed", "statement": "One group of MPI processes after another, each of any size, opens some of the blocks of a file, creates more and uses them together while file operations of any process fail, in any interleaving, and comes to its end or is killed at any moment, any number of times; what the next group does may depend on how the earlier ones ended. What becomes of each block is decided by the operations on that block and the answers they gave. A block whose header and attribute file are intact can be opened by any number of processes; it stays so through every group that does not create or flush this block, however it fails or is killed, and through every group that ended with one process having seen no error code. A block whose creation was interrupted can be created again. Every stored row that no group wrote is found as it was by every process, and a stored block that no group used is the same.", "quantifier": "all files, all histories of any number of groups of any sizes with any programs, all interleavings, all failures of file operations that are reported, all kill points", "why_tests_cant": "Damage done to a block by one interrupted group depends on the interleaving and may show only several runs later, with another number of processes; tests follow a few histories with one schedule.", "anchors": ["src/bigfile-mpi.c:big_file_mpi_create_block", "src/bigfile-mpi.c:big_file_mpi_open_block", "src/bigfile-mpi.c:big_block_mpi_write", "src/bigfile-mpi.c:big_block_mpi_grow", "src/bigfile-mpi.c:big_block_mpi_flush"]}
{"id": "C109", "title": "The life of a file of many blocks that single processes and groups of processes use in turn", "statement": "Single processes and groups of MPI processes, in any order and any number of times, open some of the blocks of a file, create more and use them while file operations fail, in any interleaving, and come to their end or are killed at any moment; what the next visitor does may depend on how the earlier ones ended. What becomes of each block is decided by the operations on that block and the answers they gave, whoever did them: what a group left is what a single process finds and the other way round. A block that can be opened stays so through every visitor that does not create or flush this block, however it fails or is killed, and through every visitor that ended with a process having seen no error code. Every stored row that no visitor wrote is then found as it was, by a single process and by every process of a group, and a stored block that no visitor used is the same.", "quantifier": "all files, all histories of any number of single processes and groups of any sizes with any programs, all interleavings, all failures of file operations that are reported, all kill points", "why_tests_cant": "The serial and the MPI functions build and read the same files by different code; that each can continue after any failure of the other needs all histories, and tests use one of the two at a time and few failures.", "anchors": ["src/bigfile.c:big_file_open_block", "src/bigfile.c:big_file_create_block", "src/bigfile.c:big_block_write", "src/bigfile.c:big_block_flush", "src/bigfile-mpi.c:big_file_mpi_create_block", "src/bigfile-mpi.c:big_file_mpi_open_block", "src/bigfile-mpi.c:big_block_mpi_write", "src/bigfile-mpi.c:big_block_mpi_flush"]}
