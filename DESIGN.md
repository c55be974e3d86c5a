# Design of the formal model of bigfile

The model is written in Lean 4 (`lean/Verif`). It follows `/repo/src/bigfile.c`, `bigfile-record.c`,
`bigfile-mpi.c`, `mp-mpiu.c`, some of `utils/*.c` and part of the Python binding, function by function. Every
definition of the model carries a comment naming the lines it models and what was simplified.

## Layout of the development

* `Verif/C/*`      C semantics: wrap-around integers, strings as byte lists, printf/scanf conversions, memory,
                   file system, faults, outcome monad (`FS.lean`), several processes (`Proc.lean`).
* `Verif/Model/*`  the program, function by function.
* `Verif/Spec/*`   small independent specifications (rows of a block, row-major order, finite maps, ...).
* `Verif/Proof/*`  helper lemmas.
* `Verif/Props/*`  the property theorems `Cnn_...`, with a concrete example beside each theorem.

To read a property: its English text is in `properties.jsonl`, the theorems that prove it are listed in
`MANIFEST.json`, each of them is in `Verif/Props` and refers to notions of `Verif/Spec`.

## How C is represented

* `size_t` is a `Nat` reduced modulo 2^64 by every operation that can wrap; `ptrdiff_t`/`int` are `Int`s, with the
  C conversions between signed and unsigned written out. Theorems state the size bound they need.
* Undefined behaviour is an explicit outcome (`ub`), never silently totalised: division by zero, null
  dereference, out-of-bounds table access, buffer overflow in `%s`, reading past a NUL, use after free.
* Non-termination is an explicit outcome (`hang`): loops run on fuel, and it is proved that the fuel is enough, or
  (for the negative results C07, C51, C52) that no amount of fuel is.
* The file system maps resolved paths (components, with `""` and `"."` dropped) to a directory or a file with its
  bytes. Every file operation consults a fault oracle that may make it fail, be short, or kill the process at that
  point; theorems about faults and crashes quantify over all oracles. A "crash" is a killed process, not a power
  failure: completed writes persist.
* User memory is a function from addresses to bytes, so frame statements range over all addresses. Allocation
  returns an address that is a parameter of the model; running out of memory is not represented.
* Floating point conversions (`f4`,`f8` to and from other types) are an uninterpreted parameter of the model
  (`Env.fo`); nothing is assumed about them unless a theorem says so. Integer conversions are exact.
  C69 assumes of this parameter what C11 6.3.1.4 and 6.3.1.5 say (`Spec.CFloat`); no other theorem does.
* The byte order of the machine is a parameter (`Env.m`), and so are uninitialised bytes (`Env.junk`).
* Several processes (`C/Proc.lean`): a process is a program whose steps are file operations and collective calls.
  A run is any interleaving of such steps; theorems quantify over all runs. See "Assumptions" below.

## What is modelled

| code | model | remarks |
|------|-------|---------|
| bigfile.c 20-50, 98-125, 156-179 error message | `ErrMsg.lean` | every access to the shared pointer is a step of a thread |
| bigfile.c 128-153 path join, block test | `Path.lean`, `List.lean` | |
| bigfile.c 183-205, 1945-2001 open/create a file, mkdir | `Path.lean` | names longer than the buffers are cut, as in the code |
| bigfile.c 211-276 listing | `List.lean` | `scandir` gives the names of a directory in byte order |
| bigfile.c 278-299, 314-577 open, grow, create a block | `Block.lean` | header scanner `fscanf`, including the overflow of `%s` |
| bigfile.c 585-650 flush and close | `Block.lean` | `fclose` losing buffered data is a fault (`silent`) |
| bigfile.c 652-690, 1434-1788 attributes | `AttrSet.lean` | buffer with offsets; text file, legacy binary file; numbers in `%g` are an uninterpreted parameter |
| bigfile.c 694-750 seek, eof | `Block.lean` | |
| bigfile.c 757-975 read, write | `Block.lean`; in steps `BlockP.lean` (proved equal) | |
| bigfile.c 990-1066 dtypes | `Dtype.lean` | |
| bigfile.c 1068-1148 arrays and iterators | `Array.lean` | |
| bigfile.c 1165-1206 format, 1208-1248 parse | `AttrSet.lean`, `Tools.lean` | |
| bigfile.c 1250-1428 conversion, checksum | `Convert.lean` | |
| bigfile.c 1793-1904 pack and unpack | `Pack.lean` | |
| bigfile.c 1907-1943 names of the data files | `Block.lean` | |
| bigfile-record.c all | `Record.lean` | |
| bigfile-mpi.c 76-315, 359-384 collective open, create, grow, flush, close | `MpiBlock.lean` | rank 0's part, then the part of all processes |
| bigfile-mpi.c 40-73 open and create a file, 95-256 create and grow as a whole, 566-704 records | `MpiPhases.lean` | sequences of phases, `C/Phases.lean` |
| bigfile-mpi.c 317-357 exchange of errors | `Mpi.lean` | in steps |
| bigfile-mpi.c 386-563 collective read and write | `Mpi.lean` | in steps; `MPIU_Gather`, `MPIU_Scatter` (mp-mpiu.c 271-349) included |
| mp-mpiu.c 65-240 sparse all-to-all, 243-269 extremum | `Mpiu.lean` | |
| mp-mpiu.c 351-476 segments | `Mpi.lean` | |
| utils/bigfile-create.c | `CreateTool.lean`, `Options.lean` | standard input is a list of bytes |
| utils/bigfile-copy.c, bigfile-cat.c | `Copy.lean`, `Cat.lean`, `Options.lean` | the option `-f` of bigfile-cat is not modelled |
| utils/bigfile-ls.c, bigfile-check | `LsTool.lean`, `Options.lean` (bigfile-ls), `OptionsScripts.lean` (bigfile-check) | `sum -s`, `awk`, `test` as functions of texts; the checks of the blocks run one after the other |
| utils/bigfile-rename, bigfile-rm, bigfile-repartition | `Scripts.lean`, `OptionsScripts.lean` | variables are split into words but not expanded as patterns; `mv` within one file system, `rm -r` without questions; the jobs of bigfile-repartition one after another |
| utils/bigfile-set-attr.c, bigfile-get-attr.c | `Tools.lean`, `Options.lean` | `sscanf` of floating point numbers is a parameter |
| utils/bigfile-copy-mpi.c 42-118, bigfile-sample-mpi.c 56-129 (`main` after the options) | `MpiTools.lean`; options: `OptionsMpi.lean` | collective phases, `C/Phases.lean` |
| utils/bigfile-iosim.c 58-247, 294-389 | `IoSim.lean`, `OptionsMpi.lean` | a failure to create or open the block is `ub`; the shell that runs `rm` is left out |
| utils/bigfile-copy-mpi.c 120-196 | `CopyMpi.lean` (messages), `CopyFiles.lean` (with file operations), `KillFiles.lean` (with failures and kills) | |
| utils/bigfile-sample-mpi.c 125-281 | `Sample.lean`, `SampleFiles.lean`, `KillFiles.lean` | `Sample.lean`: the workers act one after the other; `SampleFiles.lean`, `KillFiles.lean`: messages and file operations are interleaved in any way |
| pyxbigfile.pyx 137-200, `__init__.py` 90-149, 192-193, 271-272 (`File`) | `PyFile.lean` | `encode`/`decode` and `comm` left out |
| `__init__.py` 234-278 (`FileMPI`) | `PyFileMpi.lean` | sequences of phases; the same names on all processes |
| pyxbigfile.pyx 281-351, 571-574 (pickling of columns) | `PyColumn.lean` | `comm` left out |
| pyxbigfile.pyx 202-276 | `PyAttr.lean` | `encode`/`decode` and values of object type left out; NumPy's byte strings modelled |
| pyxbigfile.pyx 589-677, `__init__.py` 322-429 (`Dataset`) | `PyData.lean` | types that NumPy does not know, tuples as index, and the comparison of array types left out |
| pyxbigfile.pyx 513-580, `__init__.py` 195-227, 280-320 (`FileMPI.create_from_array`, `ColumnMPI`) | `PyMpi.lean` | sequences of phases, the loops in steps; the same name and number of files on all processes |
| pyxbigfile.pyx 360-505, `__init__.py` 26-42, 65-87, 151-190 | `Python.lean` | write, append, read, slicing, create_from_array |

Not modelled: `usage` and messages on stderr of the programs in `utils`; the log of times (lines 252-276) of `bigfile-iosim`; `bigfile-join` (it does not compile);
`MPIU_Set_verbose_malloc`, `mpiu_malloc`; `MPIU_Alltoallv`'s tuning options; timing and verbose output; the rest of `ColumnMPI`, and `Dataset.create` of the Python binding; memory leaks other than those of error messages;
running out of memory or stack.

## Assumptions about the environment

These are in the definitions of `Verif/C` and in comments of the models; no axiom states them.

* POSIX: `fopen`, `fseek`+`fwrite`, `fread`, `mkdir`, `stat`, `scandir` as in `C/FS.lean`. No links, no `..`, no other program that
  changes the files, no removal. One `fwrite` to a stream without buffer is one operation; it may be cut short at any byte.
* Text files (header, attributes) are written by `fprintf` to a stream that was opened with truncation; the bytes that reach the file
  before a failure or kill are any prefix.
* MPI: a collective call ends for all members when all of them have made it (`C/Proc.lean`). This is stronger than the standard
  for `MPI_Bcast`, `MPI_Gatherv`, `MPI_Scatterv`, where some members may leave early; C92 removes the assumption for each
  collective function (`C/Loose.lean`). Messages between two processes arrive in order; short messages are sent without waiting.
* In interleavings a file operation is atomic: two processes writing to one file do so one after the other. A killed process
  (`C/Kill.lean`) may leave any prefix of the bytes of its last write.
* Threads (`ErrMsg.lean`): sequentially consistent memory; a released buffer is never given out again, so that its use is noticed.
* The handle of a collective call is the same on all processes at the beginning where the documentation requires it; theorems say so.

## Trusted base

* Lean's kernel (4.33.0).
* The axioms `propext`, `Classical.choice`, `Quot.sound` of Lean. `AXIOMS.md` lists which of them each theorem of the manifest uses.
  There are no other axioms, no `sorry`, no `native_decide` or `bv_decide`.
* That the definitions in `Verif/C` and `Verif/Model` say what the code does: each cites the lines it was read from.
* That the statements in `Verif/Props` with `Verif/Spec` say what `properties.jsonl` says.

## Plan and result per property

"False" means that the property as stated in `properties.jsonl` does not hold of the code: the named theorem gives a witness in the
model, and the theorem with the suffix `_partial` proves the part that holds.

| id | what is modelled | how it is proved | result |
|----|------------------|------------------|--------|
| C01 | `seek`, `eof` on a block with sizes and offsets of files | loop invariant of the binary search | proved |
| C02 | `seek_rel` | from C01 | false for moves to before row 0: they wrap to the end |
| C03-C06 | `write`/`read` loops, iterators, conversion, files | invariant: after k rows the files are the old ones with the first k rows laid over; refinement to a flat array of rows | proved |
| C07 | `write` with fuel | variant of the loop | false: a buffer smaller than a row never ends |
| C08 | range check | case analysis with 64-bit comparison | proved |
| C09, C10 | fault oracle in every file operation | weakest preconditions over the loops for all oracles | proved |
| C11-C13 | printing and scanning the header | round trip of printer and scanner; invariant of the scanner for arbitrary bytes | false: more than 16^6 files; dtypes of 8 bytes and more overflow a buffer |
| C14 | `flush`, `close` | dirty flag | proved |
| C15, C16 | `flush` with faults | all disks a killed flush can leave | false: header truncated before it is rewritten; result of `fclose` ignored |
| C17 | `grow` | prefix sums; view of the rows unchanged | proved |
| C18, C19 | checksum, histories of writes | induction over histories | C18 proved; C19 false when rows are rewritten |
| C20 | iterator | mixed-radix counter invariant | proved |
| C21, C22 | memory of conversion | induction over elements | C21 proved; C22 false for foreign byte order |
| C23-C26 | casts, byte swap, dtype strings | arithmetic on little-endian encodings; list lemmas | proved |
| C27-C29, C32 | attribute set with explicit buffer offsets | refinement to a finite map, induction over histories | C28, C29 proved; C27, C32 false for foreign byte order |
| C30, C31, C33 | text printer/parser, legacy binary parser | round trip for attributes the text can represent | false for values without elements, dtypes with blanks, removal as the only change |
| C34 | pack/unpack | round trip | proved |
| C35-C38 | paths, mkdir, listing | lemmas on path resolution; listing = specification by induction on the tree | C36, C38 proved; C35 for paths up to 8192 characters; C37 false for some names |
| C39 | small steps of threads | invariant (who owns which buffer) over all interleavings | set and raise safe; false for re-raise and get |
| C40, C41, C65 | record types, making, transferring records | prefix sums, store laws, C03 per field; weakest preconditions for reports | proved |
| C42, C43 | partition formulas, truncation in steps | arithmetic; confluence of independent processes | C43 proved; C42 false when the product exceeds 64 bits |
| C44, C66 | segments | induction over processes | C44 proved; C66 false: a segment can exceed the threshold by one process |
| C45, C46 | collective write and read in steps | independence of the processes' operations gives one outcome for all schedules; that of one schedule is computed | proved |
| C47 | exchange of errors, whole collective transfers with faults | per-process assertions at each collective call | proved |
| C48 | collective flush | sum over processes | false for blocks opened or flushed before |
| C49, C50 | XOR schedule; folds | bit arithmetic; induction | proved |
| C51 | `main` of bigfile-copy | loop invariant over chunks, C30 for attributes; the same under failures and kills | proved; false onto itself, for small buffers, and if the attribute file of the source cannot be opened |
| C52 | work queue of bigfile-copy-mpi; its file operations | invariant over all runs of the queue; independence of the ranges | proved without faults; false for one process, small buffers, failures |
| C53, C64 | selection loop, pieces of work | induction over the loop for all random streams | C53 proved; C64 without faults for every interleaving, with faults for workers one after the other; a failure is not reported |
| C54 | slices, scalars, assignment | case analysis against a specification of NumPy slices | false for reversed slices, -1, assignment beyond the end |
| C55 | `create_from_array` | loop over chunks, then C03 | proved for limits of 1024 rows and more; false below; under failures: what is returned is complete (`PythonMay.lean`) |
| C56 | operations as a state machine | refinement to rows and attributes, induction over histories | proved without faults |
| C57 | writers in steps; failures and killed processes | disjoint positional writes commute; confluence; what was done is a serial prefix | proved |
| C58 | `read_simple` | arithmetic | false for negative starts |
| C59 | all calls | every operation of the file system keeps the tree | proved |
| C60 | parser of the attribute file on arbitrary lines | induction over lines | false for incomplete lines (reads beyond the buffer) |
| C61 | collective open and create | phases of rank 0, then all processes | false for the block "." |
| C62 | open with faults | weakest preconditions | false when the attribute file cannot be opened |
| C67 | `main` of bigfile-cat | loop invariant over chunks, with faults; printed rows computed exactly | false: `-c` is rounded up to whole buffers |
| C68 | `main` of bigfile-set-attr and bigfile-get-attr, `big_file_dtype_parse` | induction over values and attributes; scanner inverts printing | false without `-t` or `-n`; integers, characters, floating point and complex numbers proved |
| C69 | `cast` on IEEE 754 bit patterns, value of a pattern as a rational number | normalisation of mantissa and exponent by induction; C11 6.3.1.4/5 as hypothesis `CFloat` | proved |
| C70 | adaptive programs (`Session`) over the operations of C56, with any faults; specification state `Durable`: content, size in the header file, whether the attribute file is intact, whether all files exist | invariant `HoldsD` kept by every outcome and every kill; recovery by the correctness of open; induction over the program; `Went` (`Spec/Went.lean`) ties the state to the answers that the program got | partial: attributes are lost when a failed flush is repeated (C70_retry_loses_attrs) |
| C71 | collective operations as sequences of phases (`C/Phases.lean`): rank 0 alone, or all processes in every interleaving; the specification is the array of rows of C56, a transfer concatenates the arrays of the processes (`gathered`); visits of one or several processes | invariant `HoldsAll` (handles of all processes, directory, content) kept by each operation, using C43, C44, C46, C47; induction over history and visits; `OnDisk` links serial and collective visits | partial: as C56, without failing file operations |
| C72 | `mpiCreateRecords`, `mpiWriteRecords`, `mpiReadRecords` and the serial functions; specification: a table, one `Content` per field (`Spec/RecordsAll.lean`) | one field: C71 between opening and closing; loop over fields by induction, blocks apart and columns disjoint; induction over the history | proved without failing file operations |
| C73 | `mpiFileOpen`, `mpiFileCreate` | rank 0 alone, then the exchange of errors (C47_exchange) | proved |
| C74 | `createMain`, `createLoop`: standard input is a list of bytes | a handle of 2^64-1 rows writes what a handle of the right size writes (`blockWrite_sized`); then C56's `Holds` through the loop | partial: one complete row, a buffer of a row, no faults |
| C75 | `parseHeader` and its scanners on beginnings of `headerText` | scanners that succeed with something left give the same on every longer text; a cut is then either complete or stops inside a field, where the scan fails or the line count is wrong | layout proved in full; rows and attributes partial |
| C76 | `lsMain`, `lsR`: recursion over the sorted entries of each directory; specification: `IsBlock`, `shownBlock` (`Spec/LsTool.lean`) | induction over the depth: the list of blocks below a directory is complete, without repetitions, and sorted lexicographically | proved without faults |
| C77 | `checkBlock`, `checkMain`: `bigfile-cat`, `sum -s`, `bigfile-ls`, `awk` and `test` as functions of texts | C67 gives the bytes, C76 the line; words of the line; the folded sum as a residue modulo 65535 | partial: complete blocks, rows up to the buffer, no faults |
| C78 | `renameTool`, `rmTool`: `mv` as one step, `rm -r` as one step per entry in any order with children first; specification: `Moved`, `Trimmed` (`Spec/Scripts.lean`) | `wpc`: at every kill; a block is what its files say wherever its directory is (`OnDisk.at`) | proved |
| C79 | `repart`: rename, `copyMain`, remove | C78, C51_faults_partial and C78 one after the other; the way to the block exists, so the copy makes nothing else; several jobs by induction over what each of them leaves alone | partial: jobs one after another; attributes can be lost (C79_attrs_lost) |
| C80 | `convElem` on c8 and c16; specification: `cplxVal` (`Spec/Complex.lean`) | the conversion works on the parts (`convElem_parts`), C57 for each part; `byteSwap` on the whole element | partial: exact, but the parts are exchanged where byte orders differ (C80_exchanged) |
| C81 | `runBOps` as for C56; specification: `Holey` (`Spec/Holes.lean`) | invariant `HoldsH`: a row is stored exactly if it or a later row of its file was written, and rows never written hold zeros; each operation keeps it | proved |
| C82 | `runBOp` for the writer and the readers, `blockOpen`, `blockPack`/`blockUnpack`; specification: `Watched` (`Spec/Readers.lean`) | invariant `HoldsW`: the block holds its content (C81), the header and the attribute file record a prefix of its files (C70), every reader is a clean handle on a prefix of the files; each operation of anyone keeps it | proved (library calls are atomic) |
| C83 | `pyAttrSet`, `pyAttrGet`, `pyAttrDel`, `pyAttrHas`, `pyAttrKeys` on `setAttr`, `getAttr`, `removeAttr`, `lookupAttr`; specification: a dictionary of Python values (`Spec/PyAttr.lean`) | induction over the history; each operation by the invariant `AttrInv` of C27; padding and stripping of byte strings are inverse | partial (byte order; long or empty strings in lists); false for the empty string (C83_empty_str) and for strings of 100000 bytes in a list (C83_long_texts) |
| C84 | `pyDataOpen`, `pyDataGet`, `pyDataGetOne`, `pyDataSet`, `pyDataAppend` on `typeSet`, `typeComplete`, `readRecords`, `writeRecords`, `createRecords`; specification: a table of records (`Spec/PyData.lean`) | the record in memory is the concatenation of its fields (`recOf_mem`); induction over the history with C65 and C72's step for one process | partial (C84_reversed, C84_minus_one) |
| C85 | `createFromArrayAll`: rank 0 makes the block (`pyCreateRoot`), all open it (`pyMpiOpen`), all write their pieces in steps (`pyChunksP`), rank 0 flushes the sums of the checksums (`pyMpiFlush`), all open it again; specification: the parts one after another (`Spec/PyMpi.lean`) | each process alone writes its rows (`chunks_alone`); the serial run and independence of writes to disjoint rows give every other run (`loops_all`, as C57); sums of checksums by induction over ranks | partial (C85_root_fails, C85_no_files, C85_small_limit) |
| C86 | `KFilesRun` (`Model/KillFiles.lean`): the steps of C52 and C64 with the file operations of all processes, any of which may fail or kill its process; `mpiClose` | every operation of a worker either answers as if nothing had failed or spoils its range for good (`Prog.Picky`), so a run is spoiled (a report of failure, or a process that never reports) or is a run without failures (`jobs_spoiled`); at every moment by an invariant over the queue, the ranges in work and the files (`KInv`) | proved |
| C87 | `mpiToolPrepare`, `mpiToolFinish` (`Model/MpiTools.lean`) as collective phases, between them the work queue with file operations of C52 and C64; `MpiToolEnds` (`Spec/MpiTools.lean`) says that every execution of the whole ends, and how | each phase by the theorems of C71, C73, C42 and C51, whose results are the hypotheses of C52 and C64 (`tool_prepares`, `tool_with_data`); that other files do not change, by C86 | partial: as C51 and C52; `C87_alone` |
| C88 | `ioSim` (`Model/IoSim.lean`) as collective phases; `Content.numbered`, `Content.afterSim`, `Content.simExit` (`Spec/IoSim.lean`) say what the block holds after a run and how the run ends | the shares of the processes tile the block (`simLocal_before`, `simLocal_total`), the loops fill and check exactly the slots of the array (`simFill_slot`, `simRight_iff`); then C71 (`mop_step`, `read_all_keeps`, `C71_closed`); histories by induction over the runs | proved; `C88_false_alarm`, `C88_missing` record defects |
| C89 | adaptive collective programs (`MSession`) over the operations of C71 as phases; `Phases.Withstands` (`C/Withstands.lean`): any failures on each process, a kill after any step; states as for C70 | invariant `HoldsAllD` kept by each operation (`mop_may`); transfers by the frame of each process (`HandleKept`) on all interleavings; then as C70 | partial; `C89_retry_checksums` records a defect |
| C90 | the collective record calls of C72 as phases under `Phases.Withstands`; what an interrupted call leaves in `Spec/RecordsMay.lean` (`Unfinished`, `RecordsCut`, `Ungrown`, `ExtensionCut`, `CreationCut`) | open (`open_mayAll`), transfer or grow (C89), close (`close_mayAll`) for one field; then induction over the fields with the frame `SameOutsideAll` | partial: no failures that lose buffered data silently; headers written by this library |
| C91 | the programs of C45/C46 started with more rows than are left (`Spec/Overrun.lean`: `Overrun`, `AllRefused`) | every segment either lands in the block, or crosses its end and is refused, or starts after it and is written from row `p` on (`landing`); some segment crosses (`crossing_exists`); writes no longer commute, so confluence is taken up to file contents (`Proof/Alike.lean`); the false stronger claim is refuted by a concrete run (`C91_no_effect_false`) | proved; kills excluded |
| C92 | the programs of C43/C45/C46/C91 under a second semantics of collective calls (`C/Loose.lean`): a process posts its contribution, and leaves once the rest of its program no longer depends on contributions not posted; barriers, reductions and gathers to all still wait for all | arrivals and departures of different processes commute with everything (contributions only grow, `Leaves.grown`), so executions are confluent (`LRun.confluent`); a synchronising run is such an execution (`Run.loosely`), so all of them end as it does (`Run.loose_unique`; up to contents for C91, `Proof/LooseAlike.lean`) | proved |
| C93 | `main` of bigfile-copy, on blocks with missing rows; `WholeOnDisk` (`Spec/Stored.lean`): the content tells of each row whether its bytes are there | every content on disk extends to such a one (`C93_whole`); the loop invariant of C51 says that all rows so far were there; that a process is killed only where the failures say so (`Proof/Steady.lean`) | partial: as C51 |
| C94 | the programs as a whole, on any disk; `OnlyAttrs`, `OnlyMade`, `Keeps`, `ChangesOnly` | a composition rule for a relation on disks together with a fact about what is returned (`Proof/Yields.lean`): handles that were only opened are clean, so closing them does nothing; a handle keeps its name | proved |
| C95 | `getopt` (both kinds) and the loops over the options of six programs; `CmdLine` and `Mixed` say how a command line may be written | induction on the way the command line is written; the fold of the options gives the last value of each | partial: negative values of bigfile-set-attr with GNU's getopt are refused |
| C96 | the file object of Python, `os.path.join`, `lstrip` and `subfile` over `big_file_open`, `big_file_list` and `big_file_open_block` | the two ways of joining paths give the same text; `Listed` below a directory is `Listed` with the names of the way before | partial: with MPI a slash at the beginning of the key leaves the file |
| C97 | the cached list of blocks, `create` and the pickled state | the list is `big_file_list`, sorted; the cache is only written where the code does | partial: the list can be out of date; unpickling does not look at the result of `big_file_open` |
| C98 | `__getstate__`, `__setstate__` and `__dealloc__` of columns over `_big_block_pack`, `_big_block_unpack` and `big_block_close` | C34 gives a handle that differs only in where its attributes are; nothing dirty, nothing written | partial: the copy of a dirty column writes an old header when it goes away |
| C99 | `FileMPI`: `__init__`, `refresh`, `subfile`, `create`, as phases of rank 0 and of all processes | the listing of C36/C97 on rank 0, its broadcast, and the frame of `create` (only the block and directories on the way) | partial: proved without faults; a failure on rank 0 alone leaves the others waiting |
| C100 | `runBOps` as for C81; specification: names, header text and data files as README.rst documents them (`Spec/Format.lean`) | invariant `HoldsF`: C81, every file has a whole number of rows and not more than its share, and the header and attr-v2 are the texts that were last written; each operation keeps it. Other direction: the texts are ones that the readers of header and attr-v2 read back | proved |
| C101 | `createBlock`, `runBOp`, `bigFileList`; the history (`runFileOps`) and the map from names to tables are in `Spec/Blocks.lean` | invariant `BlocksHold`: every block is as in C100, and whatever differs from the disk at the start is a file of one of the blocks or a directory on the way to one. An operation on one block changes only its files (C38, C59), so the others stay as they are; there is still room for a new block; the headers below the file are those of the blocks, which C36 lists | proved |
| C102 | `createBlock`, `runBOp` with faults and crashes; programs (`runFileSession`) and what they may leave (`FileLeaves`) are in `Spec/BlocksMay.lean` | induction over the program with the weakest precondition that also speaks of the disk at a crash: the operation has one of the outcomes of C70 for its block; the other blocks are kept because only files of this block and directories on the way to it change, also at a crash (C59); reopening by C70 | proved |
| C103 | `mpiCreateBlock`, `mpiOpenBlock`, `runMOp`, `mpiClose` on several blocks; the history (`runCommOps`) is in `Spec/BlocksShared.lean` | invariant: every open block is as in C71, every closed one is stored; an operation changes only the files of its block and makes directories on the way to it, so the other blocks stay as they are | partial (restrictions of C71) |
| C104 | `mpiCreateBlock`, `runMOp` with failures in every process; programs (`runCommSession`, with their answers `runCommNoted`) are in `Spec/BlocksSharedMay.lean` and `Spec/BlocksWent.lean` | induction over the program with the weakest precondition over all interleavings, failures and kills (`Withstands`): creation analysed for process 0 and for the collective truncation (C43), uses by C89; the other blocks are kept as in C102; what the answers say by cases on the outcomes | partial (restrictions of C89) |
| C105 | `blockOpen`, `mpiOpen`, `runBOp`, `runMOp`; histories of visits (`VisitLeft`, `DiskLife`) and what they may lead to (`LifeLeads`) are in `Spec/Life.lean`; executions of collective programs that stop or are killed as a relation (`Phases.Ends`) in `C/Ends.lean` | what holds of all executions (`Withstands`) holds of what each of them leaves; one visit is C70/C89 recovery followed by C70/C89 answers; induction over the history; size and untouched rows by induction over the outcomes | partial (openings do not fail; restrictions of C70, C89) |
| C106 | `formatNative`, `dtypeFormat`, `textualLoop`, `attrLine`, `hexBytes`, `pathJoin`, `mpiPath`, `FileId.name` | bounds on the number of digits by induction; cases on the dtype; induction over the elements | proved |
| C107 | `FileLife`, `FileDiskLife`, `FileVisitLeft` over `runFileNoted`, `openBlock` | induction over the visits; each visit by an invariant over all blocks, those that are open and those that are only on disk; an interrupted creation leaves room for another (`Gentle`) | partial: nothing fails while blocks are opened; one process at a time |
| C108 | `CommLife`, `CommDiskLife`, `CommVisitLeft` over `runCommNoted`, `mpiOpenBlock` | as C107, each visit over all executions of the collective program (`Phases.Withstands`) | partial: nothing fails while blocks are opened; one group at a time |
| C109 | `MixedLife`, `MixedDiskLife`, `MixedVisitLeft` over C107 and C108 | the two states at rest (`FileAtRest`, `CommAtRest`) imply each other; collective programs keep the file tree (`Phases.TreeSafe`); induction over visits | partial: nothing fails while blocks are opened; one visitor at a time |
| C63 | `append` | C17 and C03; under failures by C68's steps | proved; under failures: old rows kept, success means done (`PythonMay.lean`) |

## Where the code differs from the properties or its documentation

Each of these is a theorem (named) or was noticed when reading and is reflected in the model.

* `bigfile-create`: input without a complete row leaves a block of 2^64-1 rows (C74_empty); errors of seek, write and close are ignored
  (C74_unnoticed); a buffer smaller than a row makes it run forever (C74_small_buffer).
* `bigfile-check`: on a mismatch the script exits with the status of the last command, that is 0. A block that cannot be opened is accepted silently
  (C77_torn: the test compares with an empty word). A block in which a row was written twice is reported (C77_rewritten). The statuses that are tested
  are those of `awk`, so `cat failed` and `ls failed` are never printed. Exchanged bytes are not detected.
* `byte_swap`: an element of a complex type is reversed as a whole, which also exchanges the real and the imaginary part, whenever the byte orders of
  array and block differ (C80_exchanged; a comment in the code says "this may still be wrong"). Reading back in the byte order of writing exchanges them again.
* `big_block_read`: rows that were never written read as zeros if a later row of the same data file was written, and cannot be read otherwise, so whether a read
  succeeds depends on the division into files (C81_division).
* `bigfile-rename`: a new name that is taken by another block is not refused; the block becomes a block inside that one (C78_onto_existing).
* `big_block_flush` rewrites the whole header and the whole attribute file from the handle: with two writing handles the growth of one is undone, and its attributes
  are lost, when the other one flushes (C82_two_writers).
* `attrs['x'] = ''` in Python stores one NUL, which is what comes back (C83_empty_str); a list with a string of 100000 bytes or more is stored with its type string
  cut to 7 characters, so only a tenth of the string (or garbage, if there are several) is kept, and no exception is raised (C83_long_texts).
* `dataset[-1]` and slices such as `dataset[4:2]` raise ValueError in Python (C84_minus_one, C84_reversed).
* In `ColumnMPI.create` (`__init__.py:204-207`) an exception on rank 0 leaves all other processes waiting (C85_root_fails); asking for no files is enough (C85_no_files).
* `ColumnMPI.open` raises `RuntimeException`, a name that does not exist: processes whose own open worked get a NameError.
* `_MPI_flush` sums the checksums of all processes and gives the sums to all of them, so flushing twice, or opening and then writing, stores wrong checksums, as in C (C48_reflush, C48_opened). When rank 0 cannot flush, its dirty handle still goes to all processes, and each of them writes the header when it drops the handle.
* `bigfile-repartition`: without `-v` the word `0` is passed to bigfile-copy as an argument, which then exits with its usage: the block stays at the
  name of its backup and is not copied (C79_quiet). Blocks nested in the block are removed with the backup (C79_nested, C79_nested_lost). A failing open of the
  attribute file gives a block without attributes, and the backup, which has them, is removed (C79_attrs_lost). The script exits with 0 in any case.
* `bigfile-ls`: the result of `stat` is not checked; the exit code is 0 when the block named cannot be opened; it lists blocks inside blocks, unlike
  `big_file_list`.
* Seek: a relative move before row 0 wraps to the end (C02_wraps). `big_block_read_simple` with a negative start reads the wrong number of
  rows (C58_negative).
* Write: a transfer buffer smaller than a row makes `big_block_write` loop forever (C07_hangs). A block with `nmemb` 0 and an
  array with elements stores uninitialised bytes. Checksums count every write, so rewriting a row makes them wrong (C19_rewrite).
* Foreign byte order: conversions swap the source in place, so writing modifies the caller's array (C22_foreign, C41_buffer_swapped),
  getting or flushing an attribute modifies it (C27_foreign, C30_foreign, C32_changes), overlapping source elements are swapped twice (C22_overlap). Complex
  numbers are swapped as one unit, which exchanges the parts (C24_complex).
* Header: not written atomically (C15_torn); `fclose` failures are not seen (C16_silent); `DTYPE` lines of eight bytes or more overflow a
  buffer (C13_overflow); more than 16^6 files cannot be reopened (C11_too_many); create accepts what open refuses (C12_not_reopenable).
* Attributes: see C30, C31, C33 in the manifest. A truncated line makes open read beyond the buffer (C60_cut), which a killed flush can
  cause (C60_torn_flush). An unreadable attribute file is ignored, and the attributes are lost at the next close (C62_lost); short reads
  of the legacy file drop attributes silently.
* A flush that fails to write the attributes marks them as stored: the next flush returns 0 without writing them (C70_retry_loses_attrs). A failed
  grow leaves a handle that is bigger, with data files missing (C17, C70).
* Creating a block over an existing one leaves the legacy attribute file and data files beyond the new number.
* After `grow` a pointer that was at the old end still names the position behind the last old file.
* The block "." (attributes of the file as a whole) has no data; reading from it divides by zero. Its unpacked handle has one uninitialised offset.
  The collective functions append a slash to the name, which the header of "." does not survive (C61_root_open, C61_root_create).
* MPI: the checksum of a block opened by n processes is multiplied by n at the next flush (C48_false). The return values of `_dtype_convert` and
  `big_block_seek_rel` in `_aggregated` are ignored, so a collective write past the end, though refused, may overwrite the first rows of the call with rows of a later process (C91_no_effect_false); a failed collective read scatters uninitialised bytes. More than 2^31 rows in one segment overflow
  an `int`. Attributes set on other ranks than 0 are lost at flush. `big_file_mpi_close` does not exchange errors. A segment can exceed the
  memory bound that a comment promises (C66_exceeds).
* bigfile-copy: onto itself truncates the source (C51_onto_itself), a small buffer loops forever (C51_small_buffer), results of setting
  attributes are ignored, copying rows never written fails, an attribute file of the source that cannot be opened gives a copy without attributes
  and success (C51_attrs_lost).
* bigfile-cat: with more rows asked for than fit into the buffer it prints too many (C67_more); a small buffer loops forever (C67_small_buffer).
* bigfile-set-attr: without `-t` the dtype is a pointer into the list of attributes, which is changed before it is used (C68_alias, C68_alias_last); without
  `-n` the buffer is allocated before the number of elements is known (C68_no_count); see C68 in the manifest.
* bigfile-copy-mpi: one process waits forever (C52_alone), a small buffer loops forever (C52_small_buffer), a failure of the last range is unnoticed
  (C52_failure_unnoticed), the last messages of the workers are never received (C52_leftover), the exit code is 0 on failure (C52_failure_status).
* bigfile-sample-mpi: aborts when more rows are drawn than the chunk has (C53_too_many, C64_aborts); the exit code is 0 on failure (C64_failure_status).
* Python: see C54, C55, C63 in the manifest.
* Error messages: see C39 in the manifest.

## Tests of the theorems

`seeded/LOG.jsonl` has one line per edit of the model in a scratch copy: what was changed, the claim it breaks, which declarations no longer
compile, and, where an edit survived, which theorems were added or tightened.
