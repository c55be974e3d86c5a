{
 "claims": [
  {
   "property": "C01",
   "status": "proved",
   "theorems": [
    "Verif.C01_seek",
    "Verif.C01_eof"
   ],
   "note": ""
  },
  {
   "property": "C02",
   "status": "partial",
   "theorems": [
    "Verif.C02_seek_rel_partial",
    "Verif.C02_compose_partial",
    "Verif.C02_wraps"
   ],
   "note": "False for moves to before row 0 (they wrap to the end): C02_wraps; proved for targets in range."
  },
  {
   "property": "C03",
   "status": "proved",
   "theorems": [
    "Verif.C03_read_back",
    "Verif.C03_handle"
   ],
   "note": "Source arrays in the other byte order must not have overlapping elements (the code swaps them in place), see C22_overlap; nmemb > 0; the buffer holds a row."
  },
  {
   "property": "C04",
   "status": "proved",
   "theorems": [
    "Verif.C04_only_its_rows",
    "Verif.C04_other_files"
   ],
   "note": ""
  },
  {
   "property": "C05",
   "status": "proved",
   "theorems": [
    "Verif.C05_rows",
    "Verif.C05_legal",
    "Verif.C05_reads"
   ],
   "note": "For rows that were written; bytes of rows never written are unspecified."
  },
  {
   "property": "C06",
   "status": "proved",
   "theorems": [
    "Verif.C06_write",
    "Verif.C06_read"
   ],
   "note": ""
  },
  {
   "property": "C07",
   "status": "partial",
   "theorems": [
    "Verif.C07_terminates_partial",
    "Verif.C07_hangs"
   ],
   "note": "False when the transfer buffer is smaller than one row: C07_hangs."
  },
  {
   "property": "C08",
   "status": "proved",
   "theorems": [
    "Verif.C08_out_of_range"
   ],
   "note": ""
  },
  {
   "property": "C09",
   "status": "proved",
   "theorems": [
    "Verif.C09_interrupted"
   ],
   "note": ""
  },
  {
   "property": "C10",
   "status": "proved",
   "theorems": [
    "Verif.C10_write",
    "Verif.C10_write_succeeds",
    "Verif.C10_read"
   ],
   "note": ""
  },
  {
   "property": "C11",
   "status": "partial",
   "theorems": [
    "Verif.C11_reopen_partial",
    "Verif.C11_too_many"
   ],
   "note": "False for blocks of more than 16^6 files, whose header the library refuses to read back: C11_too_many."
  },
  {
   "property": "C12",
   "status": "partial",
   "theorems": [
    "Verif.C12_create_open_partial",
    "Verif.C12_meta_partial",
    "Verif.C12_not_reopenable"
   ],
   "note": "False for dtypes that are not valid in a header, dtypes with blanks and negative nmemb: C12_not_reopenable; more than 16^6 files: C11_too_many."
  },
  {
   "property": "C13",
   "status": "partial",
   "theorems": [
    "Verif.C13_open_validates_partial",
    "Verif.C13_dtype",
    "Verif.C13_overflow"
   ],
   "note": "False when the DTYPE line of a header holds eight or more bytes (buffer overflow): C13_overflow; proved for all other headers."
  },
  {
   "property": "C14",
   "status": "proved",
   "theorems": [
    "Verif.C14_open_close",
    "Verif.C14_flush_twice"
   ],
   "note": ""
  },
  {
   "property": "C15",
   "status": "partial",
   "theorems": [
    "Verif.C15_flush_may_partial",
    "Verif.C15_torn"
   ],
   "note": "False: a flush cut short leaves a truncated file, old contents are gone: C15_torn. Proved: exactly which disks are possible. What the next open makes of a truncated header: C75."
  },
  {
   "property": "C16",
   "status": "partial",
   "theorems": [
    "Verif.C16_flush_stored_partial",
    "Verif.C16_silent"
   ],
   "note": "False when buffered data is lost at fclose, whose result the code ignores: C16_silent."
  },
  {
   "property": "C17",
   "status": "proved",
   "theorems": [
    "Verif.C17_grow",
    "Verif.C17_pointers",
    "Verif.C17_new_rows"
   ],
   "note": "For totals below 2^63 rows."
  },
  {
   "property": "C18",
   "status": "proved",
   "theorems": [
    "Verif.C18_checksum",
    "Verif.C18_once"
   ],
   "note": ""
  },
  {
   "property": "C19",
   "status": "partial",
   "theorems": [
    "Verif.C19_partial",
    "Verif.C19_rewrite"
   ],
   "note": "False when a row is written more than once: C19_rewrite."
  },
  {
   "property": "C20",
   "status": "proved",
   "theorems": [
    "Verif.C20_row_major",
    "Verif.C20_every_step",
    "Verif.C20_init",
    "Verif.C20_default"
   ],
   "note": ""
  },
  {
   "property": "C21",
   "status": "proved",
   "theorems": [
    "Verif.C21_read_frame"
   ],
   "note": ""
  },
  {
   "property": "C22",
   "status": "partial",
   "theorems": [
    "Verif.C22_source_kept_partial",
    "Verif.C22_foreign",
    "Verif.C22_witness",
    "Verif.C22_overlap",
    "Verif.C22_set_attr_partial"
   ],
   "note": "False for arrays in the other byte order: C22_foreign, C22_witness."
  },
  {
   "property": "C23",
   "status": "proved",
   "theorems": [
    "Verif.C23_value",
    "Verif.C23_round_trip",
    "Verif.C23_stored"
   ],
   "note": ""
  },
  {
   "property": "C24",
   "status": "proved",
   "theorems": [
    "Verif.C24_bytes",
    "Verif.C24_value",
    "Verif.C24_round_trip",
    "Verif.C24_read_back",
    "Verif.C24_complex"
   ],
   "note": "Complex elements are swapped as a whole, which also exchanges the parts: C24_complex."
  },
  {
   "property": "C25",
   "status": "proved",
   "theorems": [
    "Verif.C25_unsupported"
   ],
   "note": ""
  },
  {
   "property": "C26",
   "status": "proved",
   "theorems": [
    "Verif.C26_normal_form",
    "Verif.C26_canonical",
    "Verif.C26_kind_width"
   ],
   "note": ""
  },
  {
   "property": "C27",
   "status": "partial",
   "theorems": [
    "Verif.C27_finite_map_partial",
    "Verif.C27_foreign"
   ],
   "note": "False once an attribute stored in the other byte order is read: C27_foreign."
  },
  {
   "property": "C28",
   "status": "proved",
   "theorems": [
    "Verif.C28_memory_safe"
   ],
   "note": ""
  },
  {
   "property": "C29",
   "status": "proved",
   "theorems": [
    "Verif.C29_blank_names"
   ],
   "note": ""
  },
  {
   "property": "C30",
   "status": "partial",
   "theorems": [
    "Verif.C30_survive_partial",
    "Verif.C30_meta_partial",
    "Verif.C30_empty_value",
    "Verif.C30_blank_dtype",
    "Verif.C30_foreign"
   ],
   "note": "False for attributes without elements, dtypes with blanks, and values in the other byte order after a flush or get."
  },
  {
   "property": "C31",
   "status": "partial",
   "theorems": [
    "Verif.C31_removed_partial",
    "Verif.C31_not_saved",
    "Verif.C31_resurrected"
   ],
   "note": "False when removing is the only change (the set is not marked dirty) and when an old attribute file holds the name."
  },
  {
   "property": "C32",
   "status": "partial",
   "theorems": [
    "Verif.C32_get_keeps_partial",
    "Verif.C32_changes"
   ],
   "note": "False for attributes in the other byte order: C32_changes."
  },
  {
   "property": "C33",
   "status": "partial",
   "theorems": [
    "Verif.C33_legacy_partial",
    "Verif.C33_meta_partial",
    "Verif.C33_refused"
   ],
   "note": "False for records whose names hold blanks or that have no elements."
  },
  {
   "property": "C34",
   "status": "proved",
   "theorems": [
    "Verif.C34_pack_unpack",
    "Verif.C34_meta"
   ],
   "note": ""
  },
  {
   "property": "C35",
   "status": "partial",
   "theorems": [
    "Verif.C35_file_partial",
    "Verif.C35_file_succeeds_partial",
    "Verif.C35_block_partial",
    "Verif.C35_regular_file",
    "Verif.C35_cut"
   ],
   "note": "For paths of at most 8192 characters; C35_cut says what a longer one does: it is cut without an error."
  },
  {
   "property": "C36",
   "status": "proved",
   "theorems": [
    "Verif.C36_list",
    "Verif.C36_needs_no_faults"
   ],
   "note": "For names of at most 8192 characters; without faults (a fault hides blocks silently: C36_needs_no_faults)."
  },
  {
   "property": "C37",
   "status": "partial",
   "theorems": [
    "Verif.C37_created_is_listed_partial",
    "Verif.C37_not_listed"
   ],
   "note": "False for blocks created inside a block, hidden names, names not in normal form and names through a directory called header: C37_not_listed."
  },
  {
   "property": "C38",
   "status": "proved",
   "theorems": [
    "Verif.C38_files_distinct",
    "Verif.C38_other_blocks"
   ],
   "note": ""
  },
  {
   "property": "C39",
   "status": "partial",
   "theorems": [
    "Verif.C39_threads_partial",
    "Verif.C39_alone_partial",
    "Verif.C39_reraise_race",
    "Verif.C39_get_race",
    "Verif.C39_no_exchange",
    "Verif.C39_percent",
    "Verif.C39_overflow"
   ],
   "note": "Holds for any number of threads that set messages or raise errors with messages of their own that fit in the buffer, and for one thread making any calls. False in general: raising again or reading a message while another thread sets one uses a released buffer (C39_reraise_race, C39_get_race); without atomics buffers are released twice (C39_no_exchange); a percent sign in a message raised again is undefined (C39_percent); long names overflow the buffer (C39_overflow)."
  },
  {
   "property": "C40",
   "status": "proved",
   "theorems": [
    "Verif.C40_complete",
    "Verif.C40_unset",
    "Verif.C40_add",
    "Verif.C40_set_existing",
    "Verif.C40_partition",
    "Verif.C40_set",
    "Verif.C40_get"
   ],
   "note": ""
  },
  {
   "property": "C41",
   "status": "proved",
   "theorems": [
    "Verif.C41_write",
    "Verif.C41_read",
    "Verif.C41_round_trip",
    "Verif.C41_buffer_swapped"
   ],
   "note": "For blocks whose dtype and members are those of the field. Writing byte-swaps foreign-order fields in the const buffer: C41_buffer_swapped."
  },
  {
   "property": "C42",
   "status": "partial",
   "theorems": [
    "Verif.C42_split_partial",
    "Verif.C42_overflow"
   ],
   "note": "Holds while size*(rank+1) fits 64 bits; above that the product overflows (witness)."
  },
  {
   "property": "C43",
   "status": "proved",
   "theorems": [
    "Verif.C43_once",
    "Verif.C43_truncate"
   ],
   "note": "Division of the files among the processes, and all interleavings of the truncations with any faults short of a kill."
  },
  {
   "property": "C44",
   "status": "proved",
   "theorems": [
    "Verif.C44_segments",
    "Verif.C44_groups"
   ],
   "note": ""
  },
  {
   "property": "C45",
   "status": "proved",
   "theorems": [
    "Verif.C45_collective_write"
   ],
   "note": "All interleavings of n processes, every distribution, concurrency and threshold; the total number of rows fits an int and every array has a supported conversion. MPI collectives are modelled by their blocking semantics."
  },
  {
   "property": "C46",
   "status": "proved",
   "theorems": [
    "Verif.C46_collective_read"
   ],
   "note": "All interleavings of n processes, every distribution, concurrency and threshold; no file changes."
  },
  {
   "property": "C47",
   "status": "proved",
   "theorems": [
    "Verif.C47_exchange",
    "Verif.C47_write_agreement",
    "Verif.C47_read_agreement",
    "Verif.C47_flush_reports",
    "Verif.C47_close_reports"
   ],
   "note": "The exchange of errors ends every collective call; for big_block_mpi_write and big_block_mpi_read the whole call is covered, with failures of file operations in any pattern (reads: if the conversion is defined for every byte pattern, because after a failure the processes convert whatever the buffer holds). Flush and close: C47_flush_reports, C47_close_reports, unless a write is lost silently (C16_silent)."
  },
  {
   "property": "C48",
   "status": "partial",
   "theorems": [
    "Verif.C48_created_partial",
    "Verif.C48_total",
    "Verif.C48_opened",
    "Verif.C48_reflush",
    "Verif.C48_false"
   ],
   "note": "Holds for a block created and not yet flushed. False otherwise (C48_false): each of n processes contributes the old checksum, so it is multiplied by n (C48_opened, C48_reflush). The flush itself is modelled phase by phase, not as an interleaving."
  },
  {
   "property": "C49",
   "status": "proved",
   "theorems": [
    "Verif.C49_schedule",
    "Verif.C49_each_once",
    "Verif.C49_delivers",
    "Verif.C49_no_deadlock"
   ],
   "note": ""
  },
  {
   "property": "C50",
   "status": "proved",
   "theorems": [
    "Verif.C50_max",
    "Verif.C50_min"
   ],
   "note": ""
  },
  {
   "property": "C51",
   "status": "partial",
   "theorems": [
    "Verif.C51_copy_partial",
    "Verif.C51_faults_partial",
    "Verif.C51_opens",
    "Verif.C51_onto_itself",
    "Verif.C51_small_buffer",
    "Verif.C51_attrs_lost"
   ],
   "note": "For a block with attributes C56 can keep, to a place where no block is, with a buffer of at least one row. C51_copy_partial: without failures it succeeds if all rows were written (C93: if all are there). C51_faults_partial: with any reported failures or a kill the source is unharmed, and success means that the copy is complete, except that the attributes are missing if their file could not be opened (C51_attrs_lost). Copying a block onto itself destroys it (C51_onto_itself); a buffer smaller than a row makes the loop run forever (C51_small_buffer)."
  },
  {
   "property": "C52",
   "status": "partial",
   "theorems": [
    "Verif.C52_parallel_copy_partial",
    "Verif.C52_files_partial",
    "Verif.C52_files_ends",
    "Verif.C52_ends",
    "Verif.C52_leftover",
    "Verif.C52_alone",
    "Verif.C52_small_buffer",
    "Verif.C52_failure_unnoticed",
    "Verif.C52_failure_status"
   ],
   "note": "Every schedule and order of messages, with at least two processes and a buffer of at least one row. With one process it deadlocks (C52_alone), with a smaller buffer it runs forever (C52_small_buffer), a failure of the last range is not noticed (C52_failure_unnoticed), and no failure is reported: the processes leave their functions, close the block and end with status 0 (C52_failure_status). C52_files_partial: without faults, for every interleaving of the file operations of all processes, the new block closed by all processes has exactly the rows of the source and the right checksums."
  },
  {
   "property": "C53",
   "status": "proved",
   "theorems": [
    "Verif.C53_selection",
    "Verif.C53_work",
    "Verif.C53_too_many"
   ],
   "note": "Any function giving numbers below the bound it is asked for stands for the random number generator. When more rows are drawn than the chunk has, which the Poisson distribution allows, the program aborts (C53_too_many)."
  },
  {
   "property": "C54",
   "status": "partial",
   "theorems": [
    "Verif.C54_slice_partial",
    "Verif.C54_steps",
    "Verif.C54_scalar_partial",
    "Verif.C54_assign_partial",
    "Verif.C54_reversed",
    "Verif.C54_reversed_by_one",
    "Verif.C54_minus_one",
    "Verif.C54_assign_beyond"
   ],
   "note": "Slices whose end is not before their start and all scalars but -1 agree with NumPy. The rest is refuted: a slice whose end is one row before its start gives all rows up to the end, other reversed slices raise ValueError, column[-1] raises an error unless there are two rows, and assignment ignores the end of the slice."
  },
  {
   "property": "C55",
   "status": "partial",
   "theorems": [
    "Verif.C55_create_from_array_partial",
    "Verif.C55_reads_back",
    "Verif.C55_faults_partial",
    "Verif.C55_default_files",
    "Verif.C55_small_limit"
   ],
   "note": "C55_faults_partial: under any reported failures or a kill, a column that is returned is complete and stored, and nothing else is touched. Otherwise: memory limits of at least 1024 rows, no faults, no files of an older block in the way. With smaller limits ValueError is raised after the block was created (C55_small_limit), so the statement for any memory limit is false."
  },
  {
   "property": "C56",
   "status": "partial",
   "theorems": [
    "Verif.C56_created_partial",
    "Verif.C56_history_partial"
   ],
   "note": "Histories of any length, without failures of the file system. Restricted to rows written before they are read, attributes in machine byte order that the text file can represent (C30, C32 are false otherwise), at most 16^6 files (C11)."
  },
  {
   "property": "C57",
   "status": "proved",
   "theorems": [
    "Verif.C57_concurrent_writers",
    "Verif.C57_interrupted"
   ],
   "note": "All interleavings of the file operations of any number of writers of one block; the handles were opened before. The first theorem is about runs without failures, the second about every moment of runs with failures and killed processes."
  },
  {
   "property": "C58",
   "status": "partial",
   "theorems": [
    "Verif.C58_read_simple_partial",
    "Verif.C58_negative",
    "Verif.C58_negative_all"
   ],
   "note": "False for negative starts other than the negated size: C58_negative, C58_negative_all."
  },
  {
   "property": "C59",
   "status": "proved",
   "theorems": [
    "Verif.C59_nothing_lost"
   ],
   "note": ""
  },
  {
   "property": "C60",
   "status": "partial",
   "theorems": [
    "Verif.C60_refused_partial",
    "Verif.C60_terminates",
    "Verif.C60_cut",
    "Verif.C60_torn_flush"
   ],
   "note": "Lines with four fields whose data has the wrong length are refused. False for incomplete lines: opening reads beyond the buffer (C60_cut), which a flush killed at the wrong moment can cause (C60_torn_flush)."
  },
  {
   "property": "C61",
   "status": "partial",
   "theorems": [
    "Verif.C61_open_partial",
    "Verif.C61_create_partial",
    "Verif.C61_root_open",
    "Verif.C61_root_create"
   ],
   "note": "The handle's name ends in a slash. False for the block '.': C61_root_open, C61_root_create."
  },
  {
   "property": "C62",
   "status": "partial",
   "theorems": [
    "Verif.C62_all_or_none_partial",
    "Verif.C62_lost"
   ],
   "note": "All or none of the attributes are in the handle. False when the attribute file cannot be opened: it is silently ignored and the attributes are lost at the next close (C62_lost)."
  },
  {
   "property": "C63",
   "status": "partial",
   "theorems": [
    "Verif.C63_append_partial",
    "Verif.C63_faults_partial",
    "Verif.C63_no_files"
   ],
   "note": "At least one row, sizes in range. C63_append_partial: without failures it succeeds. C63_faults_partial: under any reported failures or a kill the old rows and the attributes are as before, and success means that the new rows are there and the header file records them."
  },
  {
   "property": "C64",
   "status": "partial",
   "theorems": [
    "Verif.C64_sample_partial",
    "Verif.C64_files_partial",
    "Verif.C64_files_ends",
    "Verif.C64_faults_partial",
    "Verif.C64_failure_status",
    "Verif.C64_all",
    "Verif.C64_aborts"
   ],
   "note": "No chunk is asked for more rows than it has, all rows of the source were written. C64_files_partial: without failures, for every interleaving of the messages and file operations of all processes, the new block closed by all has exactly the sampled rows and the right checksums; C64_files_ends: every run can be completed. C64_sample_partial, C64_faults_partial: workers one after the other, in any order; with any failures or a kill the source is unharmed, and if every worker reports success to the server the sample is complete. The server drops this report, so the status of the program is 0 also after a failure (C64_failure_status): the last sentence of the property is false of the exit status."
  },
  {
   "property": "C65",
   "status": "proved",
   "theorems": [
    "Verif.C65_create",
    "Verif.C65_extend",
    "Verif.C65_other_mode",
    "Verif.C65_make_reports",
    "Verif.C65_write_reports",
    "Verif.C65_read_reports",
    "Verif.C65_create_write_read"
   ],
   "note": "Creating and extending without faults, where the blocks of the fields are not in each other's way. The reports hold with any faults."
  },
  {
   "property": "C66",
   "status": "partial",
   "theorems": [
    "Verif.C66_bounds_partial",
    "Verif.C66_exceeds"
   ],
   "note": "A segment can exceed the threshold by the rows of one process (C66_exceeds), although a comment in the code says it does not."
  },
  {
   "property": "C67",
   "status": "partial",
   "theorems": [
    "Verif.C67_cat",
    "Verif.C67_data",
    "Verif.C67_cat_partial",
    "Verif.C67_shown",
    "Verif.C67_text",
    "Verif.C67_more",
    "Verif.C67_small_buffer"
   ],
   "note": "C67_cat gives the exact output without failures, C67_data with any failures from an open block on. The number of rows printed is rounded up to whole chunks when the count is larger than the buffer (C67_more); C67_cat_partial covers all counts that fit, are multiples of the chunk, or reach the end. A buffer smaller than a row makes the loop run forever (C67_small_buffer). The option -f is not modelled."
  },
  {
   "property": "C68",
   "status": "partial",
   "theorems": [
    "Verif.C68_set_partial",
    "Verif.C68_set_real_partial",
    "Verif.C68_get",
    "Verif.C68_roundtrip_partial",
    "Verif.C68_count",
    "Verif.C68_unknown",
    "Verif.C68_alias",
    "Verif.C68_alias_last",
    "Verif.C68_no_count",
    "Verif.C68_no_dtype",
    "Verif.C68_not_a_number",
    "Verif.C68_string"
   ],
   "note": "Setting: integers of four types, characters, floating point and complex numbers in machine byte order with -t; how the C library reads the text of a floating point number is an uninterpreted parameter of the model. Showing: every attribute in machine byte order. False without -t: the dtype of the next attribute is used (C68_alias), or the behaviour is undefined (C68_alias_last, C68_no_dtype); undefined without -n for a new attribute (C68_no_count); text that is no number is stored as garbage (C68_not_a_number); strings are not shown (C68_string). From a command line a negative value needs `--` before the operands (C95_negative)."
  },
  {
   "property": "C69",
   "status": "proved",
   "theorems": [
    "Verif.C69_exact",
    "Verif.C69_toward0",
    "Verif.C69_bool",
    "Verif.C69_representable",
    "Verif.C69_round_trip",
    "Verif.C69_stored",
    "Verif.C69_read_back",
    "Verif.C69_not_representable"
   ],
   "note": "Assumes of the compiler what C11 6.3.1.4 and 6.3.1.5 say of conversions, with the formats of IEEE 754 (Spec.CFloat; such conversions exist). Conversions to an integer type that is too small are undefined in C and not claimed."
  },
  {
   "property": "C70",
   "status": "partial",
   "theorems": [
    "Verif.C70_survives_partial",
    "Verif.C70_session_partial",
    "Verif.C70_recover_partial",
    "Verif.C70_old_data_partial",
    "Verif.C70_untouched",
    "Verif.C70_unflushed",
    "Verif.C70_flushed",
    "Verif.C70_retry_loses_attrs",
    "Verif.C70_retry_useless",
    "Verif.C70_answers_partial",
    "Verif.C70_no_false_success",
    "Verif.C70_all_well_partial",
    "Verif.C70_flush_stays_partial"
   ],
   "note": "For adaptive programs of any length, with any failures that are reported and a kill anywhere; restrictions on rows and attributes as for C56. False for attributes: after a flush that could not write them, a second flush returns 0 without storing them (C70_retry_loses_attrs, C70_retry_useless). A failed grow leaves a block that is bigger but lacks files. A flush that is interrupted can damage header or attributes (C15, C60)."
  },
  {
   "property": "C71",
   "status": "partial",
   "theorems": [
    "Verif.C71_history_partial",
    "Verif.C71_sessions_partial",
    "Verif.C71_created",
    "Verif.C71_opened",
    "Verif.C71_closed"
   ],
   "note": "For histories of any length in which every row that is read was written, rows of one transfer are fewer than 2^31, all processes set the same attributes, and no file operation fails. That the processes wait for each other between two collective calls is part of the model (C/Phases.lean). Checksums are left out: C48_false."
  },
  {
   "property": "C72",
   "status": "proved",
   "theorems": [
    "Verif.C72_create",
    "Verif.C72_history",
    "Verif.C72_round_trip"
   ],
   "note": "Without failing file operations; the fields' blocks are apart from each other (no field is stored inside the directory of another), records that are read have been written, and a collective transfer has fewer than 2^31 records. That the processes wait for each other between two collective calls is part of the model (C/Phases.lean)."
  },
  {
   "property": "C73",
   "status": "proved",
   "theorems": [
    "Verif.C73_open_agrees",
    "Verif.C73_create_agrees",
    "Verif.C73_open",
    "Verif.C73_open_missing",
    "Verif.C73_create"
   ],
   "note": "C73_open_agrees and C73_create_agrees hold for any failure of rank 0's file operations; a kill of a process is not covered."
  },
  {
   "property": "C74",
   "status": "partial",
   "theorems": [
    "Verif.C74_create_partial",
    "Verif.C74_empty",
    "Verif.C74_small_buffer",
    "Verif.C74_unnoticed"
   ],
   "note": "C74_create_partial needs at least one complete row of input, fewer than 2^63 bytes and a buffer of at least a row, no files of an older block in the way and no faults. The other three show what happens otherwise: an input without a complete row leaves a block that claims 2^64-1 rows, a small buffer makes the program run forever, and failures are not noticed."
  },
  {
   "property": "C75",
   "status": "partial",
   "theorems": [
    "Verif.C75_open",
    "Verif.C75_torn",
    "Verif.C75_content_partial"
   ],
   "note": "C75_open and C75_torn prove the part about the layout in full. C75_content_partial (rows and attributes) has the restrictions of C56 on rows and attributes and assumes that there is no attribute file of the old format. Headers of other programs, with leading zeros, can be misread when cut (example beside C75_content_partial)."
  },
  {
   "property": "C76",
   "status": "proved",
   "theorems": [
    "Verif.C76_ls",
    "Verif.C76_one"
   ],
   "note": "Without failing file operations. Hypotheses: the file exists, attribute files of all directories can be read (a directory whose attributes cannot be read is not a block for the library either), paths fit into the buffers. The order is that of the sorting function of scandir, a parameter."
  },
  {
   "property": "C77",
   "status": "partial",
   "theorems": [
    "Verif.C77_check",
    "Verif.C77_blocks",
    "Verif.C77_all",
    "Verif.C77_accepts",
    "Verif.C77_detects",
    "Verif.C77_unreadable",
    "Verif.C77_rewritten",
    "Verif.C77_torn"
   ],
   "note": "Without failing file operations; blocks are complete, rows are at most 256 MB (the default buffer) and names are single words. Accepting blocks without a complete header (C77_unreadable, C77_torn) and reporting rewritten ones (C77_rewritten) is what the program does. The checks, which the script runs in parallel, are modelled one after the other; they only read."
  },
  {
   "property": "C78",
   "status": "proved",
   "theorems": [
    "Verif.C78_onto_existing",
    "Verif.C78_rename",
    "Verif.C78_renamed_block",
    "Verif.C78_rm",
    "Verif.C78_others_stay"
   ],
   "note": "mv is one rename within a file system; rm asks no questions."
  },
  {
   "property": "C79",
   "status": "partial",
   "theorems": [
    "Verif.C79_keeps_partial",
    "Verif.C79_jobs_partial",
    "Verif.C79_one_killed",
    "Verif.C79_repartition_partial",
    "Verif.C79_others_stay",
    "Verif.C79_quiet",
    "Verif.C79_nested",
    "Verif.C79_nested_lost",
    "Verif.C79_attrs_lost"
   ],
   "note": "C79_jobs_partial: several blocks, each job with failures of its own and killed or not, in any order but one after another; the script runs them at the same time and exits with 0 in any case. As in C51, no failure goes unreported; C79_repartition_partial (without failures it gets to its end) needs all rows to have been written. The claim fails where the program does: without -v (C79_quiet), for nested blocks (C79_nested, C79_nested_lost) and for the attributes when their file cannot be opened (C79_attrs_lost)."
  },
  {
   "property": "C80",
   "status": "partial",
   "theorems": [
    "Verif.C80_value",
    "Verif.C80_stored_partial",
    "Verif.C80_read_back_partial",
    "Verif.C80_exchanged"
   ],
   "note": "The exact outcome is proved for all types and byte orders: the numbers are exact, with the real and the imaginary part exchanged exactly when the byte orders differ (a defect of byte_swap, C80_exchanged). So the claim holds where the byte orders agree."
  },
  {
   "property": "C81",
   "status": "proved",
   "theorems": [
    "Verif.C81_created",
    "Verif.C81_history",
    "Verif.C81_division"
   ],
   "note": "Histories as for C56, but any rows may be read. C81_division: whether unwritten rows can be read depends on the division into files."
  },
  {
   "property": "C82",
   "status": "proved",
   "theorems": [
    "Verif.C82_created",
    "Verif.C82_history",
    "Verif.C82_undisturbed",
    "Verif.C82_two_writers"
   ],
   "note": "Interleavings of library calls, no failures. C82_two_writers: with two writing handles growth and attributes are lost without any error."
  },
  {
   "property": "C83",
   "status": "partial",
   "theorems": [
    "Verif.C83_dict_partial",
    "Verif.C83_survives_partial",
    "Verif.C83_delete_lost",
    "Verif.C83_empty_str",
    "Verif.C83_long_texts"
   ],
   "note": "C83_survives_partial: after closing and opening the dictionary is the same, without faults; false for a history that only deletes, which is forgotten (C83_delete_lost). Partial: arrays in the other byte order are left out (reading them changes them, C32_changes), empty strings inside lists too, and lists with strings of 100000 bytes or more, which are cut without an error (C83_long_texts). The empty string comes back as one NUL (C83_empty_str)."
  },
  {
   "property": "C84",
   "status": "partial",
   "theorems": [
    "Verif.C84_history_partial",
    "Verif.C84_open",
    "Verif.C84_unequal",
    "Verif.C84_reversed",
    "Verif.C84_minus_one"
   ],
   "note": "Partial: slices that end before they begin raise instead of giving no records (C84_reversed), and dataset[-1] raises instead of giving the last record (C84_minus_one). Blocks of single bytes or byte strings must be in the byte order of the machine."
  },
  {
   "property": "C85",
   "status": "partial",
   "theorems": [
    "Verif.C85_create_from_array_partial",
    "Verif.C85_root_fails",
    "Verif.C85_no_files",
    "Verif.C85_small_limit"
   ],
   "note": "Partial: nothing fails, the block is new and the parts have one dtype. If rank 0 fails to make the block, the other processes wait for ever (C85_root_fails, C85_no_files). With a memory limit below 1024 rows every process raises ValueError after the block was made (C85_small_limit)."
  },
  {
   "property": "C86",
   "status": "proved",
   "theorems": [
    "Verif.C86_copy_killed",
    "Verif.C86_copy_success",
    "Verif.C86_sample_killed",
    "Verif.C86_sample_success"
   ],
   "note": "Hypotheses as for C52_files_partial and C64_files_partial: all rows of the source were written, no chunk is asked for more rows than it has. Closing is modelled phase by phase, and no write is lost silently in it (C16_silent). Making the new block is C70, C73. The programs do not use the reports: the exit status is 0 also after failures (C52_failure_status, C64_failure_status), so a user has to look at the messages."
  },
  {
   "property": "C87",
   "status": "partial",
   "theorems": [
    "Verif.C87_copy_partial",
    "Verif.C87_sample_partial",
    "Verif.C87_alone",
    "Verif.C87_close_reported"
   ],
   "note": "Partial for the reasons of C51 and C52: all rows of the source must have been written, the attributes are in machine byte order, no files of an older block are in the way, the product of size and number of files does not overflow. With one process and at least one row the program never ends (C87_alone). Without failures; failures while data is copied are C86, failures of the close C87_close_reported."
  },
  {
   "property": "C88",
   "status": "proved",
   "theorems": [
    "Verif.C88_create",
    "Verif.C88_update",
    "Verif.C88_read",
    "Verif.C88_grow",
    "Verif.C88_history",
    "Verif.C88_round_trip",
    "Verif.C88_false_alarm",
    "Verif.C88_missing"
   ],
   "note": "Without failures, for blocks of less than 2^31 rows, and for a block whose files of an older block are not in the way. C88_false_alarm: `read` after `grow` aborts although every row holds what was written. C88_missing: the exit code is that of success. The log of times (lines 252-276) and -p are not modelled."
  },
  {
   "property": "C89",
   "status": "partial",
   "theorems": [
    "Verif.C89_survives_partial",
    "Verif.C89_session_partial",
    "Verif.C89_recover_partial",
    "Verif.C89_old_data_partial",
    "Verif.C89_untouched",
    "Verif.C89_unflushed",
    "Verif.C89_one_verdict",
    "Verif.C89_answers_partial",
    "Verif.C89_no_false_success",
    "Verif.C89_all_well_partial",
    "Verif.C89_flush_stays_partial",
    "Verif.C89_retry_checksums",
    "Verif.C89_retry_wrong_checksums"
   ],
   "note": "Conditions on rows and attributes as for C71; the flushes of process 0 must not lose buffered data without an error (C48); arrays that are read to must have a type to which any bytes can be converted; the collective calls for creating and growing do not run while the processes are killed one by one, a kill takes all. C89_retry_checksums, C89_retry_wrong_checksums: after a failed collective flush process 0 keeps the sums of the checksums, and a second flush that reports success stores checksums in which those of the other processes are counted twice. Attributes are lost as in C70."
  },
  {
   "property": "C90",
   "status": "partial",
   "theorems": [
    "Verif.C90_create_partial",
    "Verif.C90_write_partial",
    "Verif.C90_read_partial",
    "Verif.C90_extend_partial",
    "Verif.C90_outside"
   ],
   "note": "Failures that lose buffered data without an error are excluded when making, writing and extending (C48); the headers must have been written by this library; a failed close may damage the header of the one unfinished field, its data files keep all other rows (C75 tells how to recover)."
  },
  {
   "property": "C91",
   "status": "proved",
   "theorems": [
    "Verif.C91_write",
    "Verif.C91_read",
    "Verif.C91_no_effect_false"
   ],
   "note": "C91_no_effect_false is a run in which the refused write has put the rows of one process where those of another belong: the code of big_block_seek_rel is ignored in _aggregated."
  },
  {
   "property": "C92",
   "status": "proved",
   "theorems": [
    "Verif.C92_collective_write",
    "Verif.C92_write_agreement",
    "Verif.C92_collective_read",
    "Verif.C92_read_agreement",
    "Verif.C92_overrun_write",
    "Verif.C92_overrun_read",
    "Verif.C92_truncate",
    "Verif.C92_early"
   ],
   "note": "C92_early shows that a process really is behind a call another one has not reached. That no file is truncated twice (part of C43) is not repeated for these executions. Whole programs of several collective calls still assume synchronising calls."
  },
  {
   "property": "C93",
   "status": "partial",
   "theorems": [
    "Verif.C93_whole",
    "Verif.C93_copy_partial",
    "Verif.C93_faults_partial",
    "Verif.C93_cases"
   ],
   "note": "Partial for the reasons of C51: attributes in machine byte order, no files of an older block in the way, a buffer of at least one row, no unreported failures; if the attribute file of the source cannot be opened the copy has no attributes. C93_whole: every block on disk has a content that tells of each row whether it is there."
  },
  {
   "property": "C94",
   "status": "proved",
   "theorems": [
    "Verif.C94_list",
    "Verif.C94_ls",
    "Verif.C94_getAttr",
    "Verif.C94_cat",
    "Verif.C94_check",
    "Verif.C94_setAttr",
    "Verif.C94_onlyAttrs",
    "Verif.C94_copy",
    "Verif.C94_create",
    "Verif.C94_others",
    "Verif.C94_torn",
    "Verif.C94_setAttr_killed"
   ],
   "note": "Keeps and ChangesOnly speak about executions that return or are killed. The paths of the programs that write have at most 8192 characters (longer ones are cut by the library). C94_onlyAttrs and C94_others say what follows for the header, the rows and other blocks. C94_torn, C94_setAttr_killed: examples on damaged disks and with kills."
  },
  {
   "property": "C95",
   "status": "partial",
   "theorems": [
    "Verif.C95_getopt",
    "Verif.C95_getopt_mixed",
    "Verif.C95_looks_like_option",
    "Verif.C95_copy",
    "Verif.C95_cat",
    "Verif.C95_create",
    "Verif.C95_setAttr",
    "Verif.C95_getAttr",
    "Verif.C95_ls",
    "Verif.C95_ls_ignores",
    "Verif.C95_wrong_number",
    "Verif.C95_unknown",
    "Verif.C95_missing_value",
    "Verif.C95_no_value",
    "Verif.C95_negative",
    "Verif.C95_set_stores_partial",
    "Verif.C95_negative_example",
    "Verif.C95_copyMpi",
    "Verif.C95_sampleMpi",
    "Verif.C95_mpi_usage",
    "Verif.C95_iosim",
    "Verif.C95_iosim_usage",
    "Verif.C95_iosim_no_file",
    "Verif.C95_repartition",
    "Verif.C95_check",
    "Verif.C95_check_all",
    "Verif.C95_repartition_script",
    "Verif.C95_repartition_plain",
    "Verif.C95_repartition_plain_example",
    "Verif.C95_rename_rm",
    "Verif.C95_scripts_usage"
   ],
   "note": "getopt is modelled after its manual. False for negative values of bigfile-set-attr with GNU's getopt: they are taken for options, the program ends with status 1 and nothing is stored (C95_negative, C95_negative_example); after `--` they are stored (C95_set_stores_partial). The option -f of bigfile-cat is undefined in the model (not modelled). The numbers in the options are read by atoi and sscanf as the programs do. bigfile-repartition calls bigfile-copy with a word too many unless -v is given (C95_repartition), although its usage does not mention -v: as the usage says, it renames the blocks and does nothing else (C95_repartition_plain). The scripts need names without blanks that do not begin with a dash. bigfile-iosim without the name of a file is undefined (C95_iosim_no_file). The ratio of bigfile-sample-mpi is the text that atof reads. Left out: the shell scripts' own options."
  },
  {
   "property": "C96",
   "status": "partial",
   "theorems": [
    "Verif.C96_exists",
    "Verif.C96_open",
    "Verif.C96_blocks",
    "Verif.C96_mpi",
    "Verif.C96_mpi_leaves_partial"
   ],
   "note": "os.path.join is that of POSIX; paths up to 8192 characters (longer ones are cut by the library). The list is compared when no directory on the way is itself a block and no name on the way begins with a dot; otherwise the file's list does not go below it. False for FileMPI: a slash at the beginning of the key does count, and file['/a/'] is the file /a/ (C96_mpi_leaves_partial)."
  },
  {
   "property": "C97",
   "status": "partial",
   "theorems": [
    "Verif.C97_first",
    "Verif.C97_created",
    "Verif.C97_stale_partial",
    "Verif.C97_stale_example",
    "Verif.C97_state",
    "Verif.C97_pickle",
    "Verif.C97_pickle_lost_partial",
    "Verif.C97_pickle_lost_example"
   ],
   "note": "Without faults, for names up to 8192 characters. False at any later time: the list is read once and again only when a block is created through the same object (C97_stale_partial, C97_stale_example). False for unpickling when the directory is gone: there is no exception, and the object opens blocks of the working directory (C97_pickle_lost_partial)."
  },
  {
   "property": "C98",
   "status": "partial",
   "theorems": [
    "Verif.C98_moves",
    "Verif.C98_harmless",
    "Verif.C98_closed",
    "Verif.C98_sets_back_partial"
   ],
   "note": "C98_moves: any state. Copies of columns that had nothing to store when they were pickled are harmless (C98_harmless). False for copies of columns that had: when such a copy goes away it writes its old header over the newer one, and rows added since are lost (C98_sets_back_partial). Copies that both write: C82_two_writers."
  },
  {
   "property": "C99",
   "status": "partial",
   "theorems": [
    "Verif.C99_open",
    "Verif.C99_missing",
    "Verif.C99_create",
    "Verif.C99_subfile",
    "Verif.C99_new_block",
    "Verif.C99_waits_partial",
    "Verif.C99_create_waits_partial"
   ],
   "note": "Proved without faults. False with faults: if rank 0 alone fails to look for the directory it raises an exception and the others wait for ever (C99_waits_partial). Keys that begin with a slash leave the file: C96_mpi_leaves_partial."
  },
  {
   "property": "C100",
   "status": "proved",
   "theorems": [
    "Verif.C100_format",
    "Verif.C100_history",
    "Verif.C100_concat",
    "Verif.C100_elsewhere"
   ],
   "note": "Histories as for C81, without faults, at most 16^6 files. The checksums in the header are those of C18 and C19. The text for humans in a line of attr-v2 is any text without a line break. Files made elsewhere: attributes that the format can represent, in machine byte order, and a dtype with byte order. README.rst calls the attribute file attrs-v2; its name is attr-v2."
  },
  {
   "property": "C101",
   "status": "proved",
   "theorems": [
    "Verif.C101_blocks",
    "Verif.C101_documented",
    "Verif.C101_new_file",
    "Verif.C101_same_directory"
   ],
   "note": "Without faults. Histories on each block as for C81 and C100; a handle is not used after its block was created again. C101_same_directory: two names of one directory are one block, and an old handle writes over the new one."
  },
  {
   "property": "C102",
   "status": "proved",
   "theorems": [
    "Verif.C102_session",
    "Verif.C102_survives",
    "Verif.C102_kept",
    "Verif.C102_ignored",
    "Verif.C102_new_file",
    "Verif.C102_answers",
    "Verif.C102_no_false_success",
    "Verif.C102_all_well"
   ],
   "note": "Operations on each block as in C70 (a row is read only when it was written, attributes as in C81); failures are reported ones: a buffered write that is lost while fclose, whose result the code ignores, is not covered (`NoSilent`)."
  },
  {
   "property": "C103",
   "status": "partial",
   "theorems": [
    "Verif.C103_blocks_partial",
    "Verif.C103_new_file_partial"
   ],
   "note": "Without faults; the operations on each block have the restrictions of C71 (rows are read after they were written, rows of one transfer fewer than 2^31, attributes the same on all processes; checksums left out, C48_false)."
  },
  {
   "property": "C104",
   "status": "partial",
   "theorems": [
    "Verif.C104_session_partial",
    "Verif.C104_survives_partial",
    "Verif.C104_kept_partial",
    "Verif.C104_new_file_partial",
    "Verif.C104_answers_partial",
    "Verif.C104_all_well_partial",
    "Verif.C104_ignored",
    "Verif.C104_no_false_success"
   ],
   "note": "The restrictions of C89: failures are reported ones (`NoSilent` for process 0), arrays that are read to can take any bytes, attributes the same on all processes; checksums left out (C48_false). The blocks are those that the program makes or has open; opening and closing while operations fail is not part of the program (a block is flushed)."
  },
  {
   "property": "C105",
   "status": "partial",
   "theorems": [
    "Verif.C105_life_partial",
    "Verif.C105_visit_partial",
    "Verif.C105_opens_partial",
    "Verif.C105_kept_partial",
    "Verif.C105_happens_partial",
    "Verif.C105_row_stays",
    "Verif.C105_size_stays",
    "Verif.C105_intact"
   ],
   "note": "Nothing fails while the block is being opened (an attribute file that cannot be opened is taken for a missing one: C70 notes); otherwise the restrictions of C70 and C89: failures are reported ones, a kill stops all processes of a visit. After a flush that failed or was interrupted nothing more is claimed (it can really damage the header, C70)."
  },
  {
   "property": "C106",
   "status": "proved",
   "theorems": [
    "Verif.C106_format",
    "Verif.C106_attr_text",
    "Verif.C106_raw",
    "Verif.C106_convert",
    "Verif.C106_data_name",
    "Verif.C106_path",
    "Verif.C106_mpi_path"
   ],
   "note": "Assumes that `%g` prints at most 13 characters (`FmtOk`). That an overrun of the human-readable part would be undefined behaviour is in the model (`attrLine`), so C30 and the theorems on flushing also show that it does not happen. Elements of more than 128 bytes do overrun a buffer in bigfile-get-attr and bigfile-cat (undefined behaviour in the model, excluded in C67, C68); error messages are C39."
  },
  {
   "property": "C107",
   "status": "partial",
   "theorems": [
    "Verif.C107_life_partial",
    "Verif.C107_visit_partial",
    "Verif.C107_opens_partial",
    "Verif.C107_kept_partial",
    "Verif.C107_happens_partial",
    "Verif.C107_row_stays",
    "Verif.C107_ignored",
    "Verif.C107_intact",
    "Verif.C107_new_file"
   ],
   "note": "Partial: nothing fails while blocks are opened, no file operation fails silently (as in C70), and one process works at a time (groups of processes on one block are C105, on a file of many blocks C104)."
  },
  {
   "property": "C108",
   "status": "partial",
   "theorems": [
    "Verif.C108_life_partial",
    "Verif.C108_visit_partial",
    "Verif.C108_opens_partial",
    "Verif.C108_kept_partial",
    "Verif.C108_happens_partial",
    "Verif.C108_row_stays",
    "Verif.C108_ignored",
    "Verif.C108_intact",
    "Verif.C108_new_file"
   ],
   "note": "Partial: nothing fails while blocks are opened, no file operation fails silently (as in C89), a kill ends all processes of a group, and one group works at a time."
  },
  {
   "property": "C109",
   "status": "partial",
   "theorems": [
    "Verif.C109_life_partial",
    "Verif.C109_visit_partial",
    "Verif.C109_opens_partial",
    "Verif.C109_kept_partial",
    "Verif.C109_happens_partial",
    "Verif.C109_row_stays",
    "Verif.C109_ignored",
    "Verif.C109_intact",
    "Verif.C109_new_file"
   ],
   "note": "Partial: nothing fails while blocks are opened, no file operation fails silently (as in C70 and C89), a kill ends all processes of a group, and one visitor works at a time."
  }
 ]
}