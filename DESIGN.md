# Formal model of dnstable: design

The subject is the C library in `/repo` (farsightsec/dnstable 0.14 plus the `libmy` helpers it
carries).  The model is a Lean 4 project in `lean/`; properties are listed in `properties.jsonl`
and their status in `MANIFEST.json`.  Wrong programs tried against the theorems are in
`seeded/LOG.jsonl`.

## 1. Trusted base

* Lean 4.33.0's kernel.  No own axioms, no `sorry`, no `native_decide`/`bv_decide`.  Theorems depend
  at most on `propext`, `Classical.choice`, `Quot.sound`; section 8 lists which theorem uses which.
* The transcription of the C code into Lean definitions (section 3).  Every model definition cites the
  file and lines it transcribes and says what was simplified.
* The contracts of section 4 for code that is not in `/repo`.
* The specifications in `Verif/Spec/*`, to be read against the manual pages.

## 2. Modelling conventions

* Bytes are `UInt8`, byte strings `List UInt8`; C integers are `Nat` (or `Int`) with the C reduction
  (`% 2^64`, `% 2^32`, ...) written out where the C code wraps or truncates.
* A C function returns `Out a`: `ok a`, `fail` (NULL / `*_res_failure`) or `fault f`, where `f` is one
  of: read or write outside an object (`oobRead`, `oobWrite`), failed `assert` (`abort`), infinite loop
  (`diverge`), shift out of range or signed overflow (`badShift`), `longjmp` into a dead frame (`staleJump`), NULL
  dereference (`nullDeref`), release of a block that is not allocated (`badFree`), use of such a block
  (`useAfterFree`).  Undefined behaviour is thus an outcome that theorems must exclude (or
  exhibit), not something assumed away.
* Iterators (`query_mtbl.c`) are state machines (`Mach`) with a `next` and a `seek`; the world (clock,
  remaining offset, armed time limit, statistics) is threaded through every step; `longjmp` on timeout
  is an outcome that keeps the state reached.  Loops inside `next` run on fuel computed from the size
  of the remaining table; running out of fuel is the fault `diverge`, which theorems exclude (C49 shows
  the fuel is always enough when names decode).
* Pointers into buffers are suffixes of byte lists.  A read behind the end of the list is `oobRead`
  even if the C object happens to be larger.
* Where memory matters (C61, C62, C65, C66) functions run in `Mem`: a heap is the list of allocated blocks with their
  contents, blocks get fresh numbers, `free` and every access demand an allocated block.  `Does` is the
  triple used in proofs: which blocks there are before and after.
* Specifications are separate (`Verif/Spec/*`): mathematical records, names as label lists, sets of
  types, lists filtered by predicates on decoded records, a reader of JSON, a calendar.

## 3. What is modelled and what is not

| Source | Modelled (file in `Verif/Model`) | Not modelled |
|---|---|---|
| `libmy/varint.c` | all six functions (`Varint`) | - |
| `dnstable/triplet.c` | all (`Triplet`, with the buffer `MergeMem`) | - |
| `dnstable/merge.c` | all (`Merge`, `Union`), with buffers and allocation (`MergeMem`) | - |
| `dnstable/entry.c` | decoding, accessors, type unions, type names, times, JSON and text output, formatter (`Entry`, `Union`, `Util`, `Time`, `Json`, `TextForm`), memory of decoded entries (`EntryMem`), of the output functions and formatters, and programs that use them (`OutputMem`) | - |
| `dnstable/dnstable-json.h` | number, string and member output (`Format`, `Json`) | `bool`, `null` (unused by the library) |
| `dnstable/util.c` | all (`Util`) | - |
| `dnstable/query.c` | setters (`Setters`), their error texts and the memory of a query (`Heap`, `QueryMem`), `dnstable_query_filter` (`QueryFilter`), filters, initialisers, iteration, time limits (`Query`; with setters called while an iterator is open `Live`), counters (`Stats`, `FilesetStats`), `dupsort` (`Dupsort`), file sets (`Fileset` aggregated, `Unaggregated`), the memory of iterators (`IterMem`) | - |
| `dnstable/query_mtbl.c` | ljoin, filter, timeout, remove with their counters (`Mtbl`, `Stats`), their memory and destructors (`IterMem`) | - |
| `dnstable/reader.c`, `iter.c` | opening, kinds, iteration, statistics dispatch (`Reader`, `Stats`), memory, and programs of calls (`ReaderMem`) | reload timing of setfiles |
| `libmy/vector.h`, `ubuf.h`, `my_alloc.h` | all operations on arrays and buffers (`Vector`) | freeing, `ubuf_cstr` apart from `ubuf_cterm`, an array appended to itself |
| `libmy/my_format.c`, `hex_decode.h`, `ip_arith.h`, `my_time.h` | the functions the library calls (`Format`, `Setters`, `Mtbl`) and the hexadecimal text of `my_format.c` (`HexStr`) | the rest |
| `src/dnstable_lookup.c` | the meaning of the time options with `-c` (`Lookup`), `parse_time` (`ParseTime`), options, arguments and environment (`Command`), `print_entry`, the time limits and `do_dump` (`LookupRun`), the statistics (`StatsText`), all of it together (`Program`) | error texts, failing writes |
| `src/dnstable_dump.c` | all (`Dump`, `Argv`) | failing writes, error texts |
| `libmy/argv.c` | `argv_process` for flags, a mandatory string and `ARGV_ONE_OF` (`Argv`) | other types of options, arrays, usage texts |
| `libmy/heap.c` (bundled, not built into the library) | all functions on an existing heap (`PtrHeap`) | creation, freeing |
| `libmy/b64_encode.c`, `b64_decode.c` (bundled, not built) | all functions, with `char` signed (`Base64`) | platforms with unsigned `char` |
| `libmy/b32_encode.c`, `b32_decode.c` (bundled, not built) | all functions (`Base32`) | sizes beyond the memory |
| `libmy/my_queue_mb.c`, `my_queue_mutex.c` (bundled, not built) | creation, insertion, removal, with the threads step by step for the first and call by call for the second (`SpscQueue`) | freeing, weak memory (the barriers are taken to make memory sequentially consistent), failures of the lock |
| `libmy/string_replace.h` (bundled, not used) | `string_replace` (`CStrings`) | memory |
| `libmy/print_string.h` (included by `dnstable_dump`, not called) | `print_string` (`CStrings`) | locales but the C locale, failures of the stream |
| `libmy/crc32c.c`, `crc32c-slicing.c`, `crc32c-sse42.c` (bundled, not built) | both implementations, little endian (`Crc32c`, `Crc32cTable`); the instruction `crc32` as in Intel's manual | the big endian tables, `cpuid` (either answer is allowed) |
| `libmy/my_fileset.c` (bundled, not built) | all functions but `my_fileset_user` (`MyFileset`): search by halving, marks, callbacks in their order; the file system answers anything at each call | allocation, callbacks left out by the caller; `qsort` for names that occur twice |
| `libmy/read_bytes.h` (bundled, not built) | `read_bytes` (`ReadBytes`), with any answers of the system | - |
| `libmy/my_rate.c` (bundled, not built) | `calc_next_tick`, `my_rate_sleep` (`Rate`); the clock and the period computed are given | the floating point of `my_rate_init` and `adjust_rate`, overflow of times |
| `libmy/spooldir.c` (bundled, not built) | `spooldir_init`, `spooldir_next` (`Spooldir`); what `readdir` lists and whether `rename` is granted are given; a call is one step because of the lock | `spooldir_destroy`, making the directories, waiting |
| `libmy/zonefile.c` (bundled, not built) | `read_soa`, `zonefile_init_fname`, `zonefile_read`, `zonefile_get_count`, `zonefile_get_serial`, `zonefile_destroy` (`Zonefile`); what libldns delivers for each entry is given, and that `$ORIGIN` sets `origin` | whether a file can be opened and what the shell makes of the command are given; not modelled: `prev`, `domain` and the default TTL |
| `libmy/lookup3.c` (bundled, not built) | `mix`, `final`, `my_hashword`, `my_hashword2` (`Lookup3`) | `my_hashlittle`, `my_hashlittle2`, `my_hashbig` |
| `t/`, the rest of `libmy` | - | all |

Simplifications worth knowing:

* Merging is eager: `aggregated` yields all rows of a merger at once, or the fault of a merge, while
  mtbl merges as rows are read.
* The reader filter of a file set is taken to be called once per file.
* A NULL iterator returned by mtbl is treated as an empty one.
* Counters are unbounded numbers instead of `uint64_t`.
* One arbitrary buffer `numbuf` stands for the uninitialised buffers of all number output.
* Outside of `Vector`, a `ubuf` is the list of its bytes; C55 shows that this is what the storage holds.
* Memory of iterators (`IterMem`): an object of mtbl is one block; an iterator on it needs that block, and the blocks
  of whatever its callbacks use, at every use until it is destroyed.  A call of `dnstable_iter_next` is any sequence of the
  steps that touch, open or destroy iterators, so it covers all contents of files and all moments of a time limit.
  Filters touch the query but not the buffers the query points to.  Files of set files, and sources given to
  `dnstable_reader_init`, are blocks of the caller (`ext`).  A copy of a file set is taken to need the original, hence the
  rule that the reader of a set file outlives its iterators, which the manual does not state.
* Command line of `dnstable_dump` (`Argv`): strings without NUL; the files of arguments are a function of their names, of
  which a given number can be open at a time; the standard input gives nothing once it has been read.  Pointers
  before the option table that are made but not followed (`which_p - 2` in `check_or`) are ignored.
* `data[4] << 28` of `varint_decode32` is taken as gcc defines it (the bits beyond the 32nd are lost); `VarintStrict` has the
  reading of the C standard.
* Shifts are a parameter (`Arith`): `strictArith` (the C standard) and `x86Arith` are instances.

## 4. Contracts of code outside `/repo`

* **mtbl** (`Model/Mtbl.lean`, `curM`).  A source is a list of key/value pairs sorted by key
  (`memcmp` order, shorter first).  `get`/`get_prefix`/`get_range`/`iter` return an iterator over the
  rows in that view; `next` returns them in order; `seek k` moves, forward or backward, to the first
  row of the view with key >= `k`.  A `seek` may report failure only when no row is left (a parameter
  `sf` of the model; theorems hold for every one).  `mtbl_varint_*` behave like `libmy/varint.c`.
* **mtbl mergers and file sets** (`Model/Merger.lean`).  One cursor per file; rows of equal key are
  folded from left to right with the merge function; which of several equal heads comes first is a
  parameter `pick`; theorems hold for every one.  Without a merge function rows of equal key are kept
  apart, in the order of the `dupsort` function (`Model/Unaggregated.lean`).
* **wdns**.  `wdns_len_uname` returns the length of the uncompressed wire name at the start of a buffer
  or fails (label length above 63, or not terminated inside the buffer); `wdns_reverse_name` reverses
  the label order and is taken to fail for anything that is not exactly one name, NULL and the empty string included (an
  RRset query without a name hands it those).  Text functions (`wdns_domain_to_str`, `wdns_rrtype_to_str`, `wdns_rdata_to_str`,
  `wdns_str_to_name_case`, `wdns_str_to_rrtype`) are parameters; what JSON theorems ask of them is
  `TextsOk`, what the setter theorem asks is `LibsOk`.
* **libc**: `memcmp`, `memcpy`; `gmtime_r` is a parameter constrained by `GmtimeOk` (proleptic Gregorian
  UTC); `snprintf` with `%'` and `strftime` depend on the locale and are parameters (`Locale`, asked for
  `LocaleOk`); `clock_gettime` is an arbitrary sequence of readings; `inet_pton`, `strptime` and
  `timegm` are parameters (the latter asked for `TimeLibsOk`); `strtok_r`, `strtol`, `strtoll`, `snprintf` with `%02x`/`%hu`/`%d`, `toupper`, `tolower`, `strcasecmp` are written out for
  the C locale; `atoi` cuts the result of `strtol` to 32 bits as glibc does; `getopt` is the list of its results;
  allocation always succeeds.

## 5. Layout

* `Verif/Model/*`: transcription of the C code.
* `Verif/Spec/*`: what the properties talk about.
* `Verif/Lemmas/*`: helper lemmas.
* `Verif/Props/*`: one theorem group per property, each with a concrete non-trivial instance
  (`example`) beside it, and the counterexample theorems (`*_counterexample`) for findings.  A theorem
  that needs hypotheses beyond those of its property is suffixed `_partial`; its comment says what is
  missing.

## 6. Plan per property

| Property | What is modelled | How it is proved |
|---|---|---|
| C01 C02 | `libmy/varint.c` byte loops | induction on the value (7 bits at a time), case split on length for the two decoders |
| C03 | `triplet.c` | composition of C01 |
| C04 C05 C06 | `dnstable_merge_func`, dispatch by key | min/max/sum algebra; fold invariance under permutation |
| C07 C08 C09 C11 | `rrtype_union_unpack`, `sorted_merge_dedup`, bitmap writer | loop invariants: output sorted, membership equals bit test; reader/writer inverse; counterexample for the 1024-byte assertion and for blocks longer than 32 bytes |
| C10 | `rrtype_union_check`, `rrtype_test` | induction over blocks against membership in the unpacked set; counterexample for the off-by-one read |
| C12 | wire names, `wdns_reverse_name` contract | induction on labels |
| C13 C14 C15 C16 | `dnstable_entry_decode` and all `decode_*` | decode (encode r) = r for the encoding of dnstable-encoding(5); injectivity follows |
| C17 | same, on arbitrary bytes | false as stated: counterexamples (infinite loop, over-read); positive part on well-formed entries |
| C18-C22 C25 | `query_init_*`, filters, `query_iter_next`, `query_iter_next_name_indirect` | refinement of the iterator machines to list filters (`Impl`: a machine implements a list of rows under every sequence of `next` and `seek`) |
| C23 C36 | `filter_rrtype_ip`, `increment_key` | order-theoretic skip-safety lemma plus refinement; counterexamples for the over-reads |
| C24 | `ip_arith.h` | arithmetic; shift faults exhibited for /0, /64 |
| C26 C28 C44 | `filter_rrtype`, `filter_bailiwick`, `filter_time_common`, `dnstable_query_filter` | decode lemma both ways; counterexample for a zero last-seen time |
| C27 C48 C50 | `reader_time_filter`, file-set pipeline, merge of tables | lattice argument on min/max plus the operator refinements; the query theorems hold for every source that offers the records (`Offers`), and the file set does |
| C29 | ljoin/remove machines | simulation |
| C30 C31 C32 C33 | timeout machine, offset filter, counters, world threading | simulation holding for every clock sequence |
| C34 C35 | `dnstable_dupsort_func`, `bytes_compare` | order axioms |
| C37 C38 C39 C40 C41 C42 | JSON/hex/number/time formatting, string tables | round-trip with an independent reader |
| C51 | text output | line by line against a separate list of lines; zone lines are read back |
| C52 | setters | equivalence with a separate list of accepted calls and their meaning (`Asks`) |
| C53 | `parse_time` | equivalence with a grammar of documented texts (`Moment`); overflow witness and a length below which none occurs |
| C54 | `do_dump`, `print_entry`, `-t`, `-i` | invariant of the loop over single calls: what has been printed plus what the iterator still holds is the answer; deadlines via the clock arithmetic of C31 |
| C55 | `vector.h`, `ubuf.h` | refinement: storage with capacity and wrap-around arithmetic holds an abstract sequence; every operation preserves it or aborts for want of memory |
| C56 | `dnstable_dump` | the loop over the iterator of C45, with the forms of C39 and C51 |
| C57 | `main` of `dnstable_lookup` | equivalence of the program with a description of proper command lines (`Commands`), through C52 for arguments and C53 for times; options by induction over the list of them |
| C58 | the program from command line to output (`Program`) | composition: C57 gives the query, the store theorems (C18-C22, C36, C27, C48, C50) its records, C54 the output |
| C59 | queries for time ranges and versions | prefix scan over stored tables, C48 and C06 for the merged values, C57 and C54 for the program |
| C60 | statistics written by `dnstable_lookup` | every stage reads the clock and leaves it alone (induction over the stages); induction over calls for the blocks and the time between them; the text from the loops over names |
| C61 | error texts of queries | each setter with its allocations changes the query as its model without memory and leaves exactly the blocks the query owns; induction over calls |
| C62 | lifetimes of queries, readers, iterators, entries | invariant of programs: the live blocks are those of the objects the program holds; every call keeps it or stops without bad access; induction over calls; the iterators in memory refine the plans and pipelines of the functional model |
| C63 | command line of dnstable_dump | simulation: the option table after arguments is a function of what they say; induction over letters and arguments; files of arguments by replacing them with their lines; composition with C56 |
| C64 | `dnstable_iter_get_count` | table of stages and categories against the stages of the assembled query; induction over the files of a set |
| C65 | `dnstable_entry_to_text`, `_to_json`, `_format`, formatters | the memory of the output functions refines the functional output; the invariant of C62 with formatters and strings added; induction over calls |
| C66 | memory of `dnstable_merge_func` | simulation: the writer with its buffers against the writer of lists; bounds of varints; induction over the values of a key |
| C67 | query iterators whose query changes | simulation of a run with harmless setters by a run without; invariant of each stage for all values of the query; each call is the first match in what is left of the table |
| C68 | `libmy/heap.c` | invariant: a tree where no item is before its parent, with one place excepted while an item moves; refinement to a bag |
| C69 | `libmy/b64_*.c` | all bytes by cases, then groups of three and four; the state of the coder is the digits not yet complete |
| C70 | `libmy/b32_*.c` | all bytes by cases, then groups of five and eight |
| C71 | `libmy/my_queue_*.c` | invariant over the steps of both threads: the bytes between the positions are the items, what each thread has read is still true or on the safe side; every return is a step of a bounded sequence of items |
| C72 | `libmy/string_replace.h` | induction on what is left; the result is the only one that replaces leftmost occurrences |
| C73 | `libmy/print_string.h` | all bytes by cases; reading back |
| C74 | `libmy/my_format.c`: hexadecimal text | induction on the bytes written; all bytes by cases |
| C75 | `libmy/crc32c*.c` | the shift of the register is linear and, below 2^32, injective; a message enters it all at once; the 2048 table entries are evaluated by the kernel |
| C76 | `libmy/my_fileset.c` | invariant between the calls (names ascend, no marks); the loop over the lines against an assignment of pointers; the calls of callbacks against the collection of what is open |
| C77 | `libmy/read_bytes.h` | induction on the answers of the system |
| C78 | `libmy/my_rate.c` | the next tick is the next multiple of the period in the second; calls that return in one second are in different parts of it |
| C79 | `libmy/spooldir.c` | the names of the directories as an invariant; the numbers given out and waiting are among those that arrived |
| C80 | `libmy/zonefile.c` | what is still to be told of a file as an invariant; the records given out, freed and unread are those of the file |
| C81 | `libmy/lookup3.c` | each line of `mix` and `final` undone; the loops of both functions agree by induction |
| C43 C46 C47 | setters, `-c` logic, accessors | decision logic, counterexamples |
| C45 | `reader.c` iterators | refinement |
| C49 | all loops of a query call | measure on the remaining rows |

## 7. Where the code disagrees with the properties

Proved, with a concrete witness (`*_counterexample` theorems):

* C01: by the C standard, reading back a 32-bit number from 2^31 on is undefined (`data[4] << 28` leaves the range of `int`).
  With gcc the claim holds.
* C07: two all-zero bitmaps merge to the empty value, from "no type" to "any type".  C09: merging two
  legal sets of 31 and one types can fail the 1024-byte `assert`.  C48: whether that happens depends on
  the order of the files.
* C10: testing a type whose byte lies just behind a bitmap block reads one byte too far (the man page's
  own example `00 01 62` and type PTR), and can report a type that is not there.  C20: a right-wildcard
  query by type can therefore read behind an index value.
* C11: `rrtype_union_unpack` accepts blocks longer than 32 bytes; the set of all 65536 types is refused.
* C17: an RRset key whose rdata length is five 0x80 bytes makes the decoder loop for ever; keys ending
  behind the owner name or inside a length, and empty values, are read past their end; owner names
  longer than 255 bytes (if wdns lets them through) are written past a stack buffer.  C45: the same
  through a reader's iterator; and the iterators of a reader of a set file dereference NULL.
* C18: a name whose last label ends with the bytes 1, `*` is taken for a right wildcard.
* C21: asking for a name among records of a type that bears none (TXT) delivers records whose data
  happen to be the bytes of the name; unsliced MX or SRV records (see C22) are found under the wrong
  name.  C22: names of types that the documented index does not cover (NSEC) are found by exact but
  not by left-wildcard queries.
* C23: keys of other types that end where the skipping code expects more are over-read; a TXT record
  `hello` of `a.com` is enough for an IPv6 range query.
* C24: prefix length 0 gives the single address on x86 (IPv4); lengths 0, 1 (IPv4), 0 and 64 (IPv6) are
  undefined behaviour.
* C27: a file with a record whose last-seen time is stored as 0 can be taken away although the record
  passes.  C28, C44: such a record is filtered by 0 but shown with its first-seen time, so that
  `dnstable_query_filter` rejects what the query returned.  C46: `-c` selects it wrongly.
* C31: clearing the limits of a query with an open iterator leaves the timeout stage in place; the next
  call may jump into a dead frame.
* C32: an iterator uses up the offset of the query object, a second iterator skips fewer rows;
  undecodable rows count towards the offset.
* C33: a row can be taken and neither handed on nor counted (address 255.255.255.255); a stage that is
  not there reports failure, which the manual excludes.
* C34: values that differ only in the count come in the order of the files.
* C39: raw data of types that do not fit three varint bytes overflow a buffer; types above 65535 are
  truncated; source info is cut at NUL and need not be UTF-8; the full type set is shown as
  `<failure>`; the manual's `raw_rdata` and single strings are not what is written.
* C43: rejected names, addresses and raw data replace the previous ones, and the query may then abort
  or read NULL; clearing the version type has no effect; in address queries the order of setting type
  and address matters.
* C47: `dnstable_entry_get_rdata` with an index equal to the number of rdatas aborts.

* C51: in a locale with a thousands separator of more than one byte (U+202F, three bytes, in French) a
  count of 10^15 does not fit the number buffer, and text from behind it is printed; source info with a
  newline gives a line that is no comment; a time `gmtime_r` refuses is left out.
* C53: the date 1969-12-31 is accepted as a time in the far future (the manual excludes it);
  `99999999999999w` overflows a signed number; a number beyond 2^63 - 1 is taken for 2^63 - 1.
* C57: a number beyond the range of an `int` is not refused but taken modulo 2^32 (`-O 4294967297` is `-O 1`);
  the manual has `-O` with `version` and `time_range`, which the program refuses (and `--raw`, which `getopt`
  does not know).
* C59: with a bound on times, queries for versions and time ranges read past the end of the values they find, since
  the time filter takes these for three numbers; `dnstable_lookup` does not set bounds for them.
* C61: raw data that is not hexadecimal, ranges that do not consist of two parts, unknown kinds for version queries,
  data for time-range queries and filter parameters are refused without setting a text: `dnstable_query_get_error`
  then gives the text of an earlier failure, or "unknown error".
* C62: iterators of aggregated queries with a strict time bound on a set file are not released completely: the removal
  stage copies the key (or range) of every lookup and never frees the copies.
* C67: an open iterator reads type, bailiwick, time bounds and offset from its query at each row, so setters change its answers
  (`dnstable_reader(3)` only says that the query must not be destroyed).  Criteria are only applied if the query had a criterion of the
  same sort when the iterator was opened, a type that has been taken away is still applied, and another type for an address query makes
  the iterator abort on some rows.  `Query` takes the criteria as they were when the iterator was opened; `Live` reads them at each
  call, and `liveAssemble_at` shows that the two agree while the query is not changed.
* C68: `heap_get` on an empty heap aborts, as its check compares with the size minus one in unsigned arithmetic; for a heap with
  items an index past the end gives NULL.
* C69: `base64_encode_value` reads before its table for negative values; the base 64 decoder reads past its table for `{`, and reads one byte past a destination that has just the room for the bytes.
* C70: the base 32 encoder writes `00000000` for empty data, and three characters instead of four for two bytes left after the groups
  of five, so that their last bit is lost.
* C71: the place of an item is a product of two `unsigned` numbers, so that in a queue of more than 2^32 bytes items overwrite each
  other; nothing refuses such a queue.
* C72: `string_replace` of the empty string never ends.
* C73: `print_string` does not escape a backslash, so that different strings are written alike.
* C74: `my_bytes_to_hex_str` with a destination of size 0 subtracts one from it and takes the room for unlimited.
* C76: `my_fileset_reload` gives a file that the set file lists twice two entries; after the next reload both have the same pointer, which
  is then passed to `unload` twice. Blank lines stand for the directory itself, so that two of them are enough. A new set file that
  `fopen` cannot open once is taken for known and not read later.
* C78: the period of `my_rate_init` is cut to whole nanoseconds, and ticks are counted from the beginning of each second; with a rate of 3
  four calls can return within a second. `my_rate_sleep` does not go on sleeping after a signal.
* C79: `spooldir_next` removes a file of the same name from `active` before it moves the new one; if another program still works on the
  file, or if the move then fails, the file is lost.
* C80: `zonefile_read` says at a second SOA that there are no more records, but the next call reads on behind it; `zonefile_get_serial`
  uses a null pointer once `zonefile_read` has been called; `read_soa` overwrites an origin set before the SOA without freeing it, and
  does not look for the end of the file. `zonefile_init_fname` does not free the object if the file cannot be opened (lines 86, 87), and
  gives the name of a compressed file to the shell unquoted (line 77; what the shell does is not modelled).
* C66: merging two different bitmaps without any type allocates zero bytes; where `malloc(0)` is NULL this aborts.  (Decoding an
  RRset with empty record data allocates zero bytes, too; the other models take `malloc(0)` to give a block, as in glibc.)
* C65: a key whose first byte is no known type decodes to an entry without a name that passes for an RRset; writing it hands
  NULL to libwdns, in all three output functions.  The strings of programs with removal queries are released, the iterators not (C62).
* C64: an unaggregated query over a file set hands every file to the reader filter twice, for its two file sets, and so
  reports twice as many files as it reads.
* C63: `dnstable_dump -r=no FILE` stops with a failed assertion: the option counts as given although it is turned off.
  The synopsis of dnstable_dump(1) has `--rrset` and `--rdata`, which are refused as ambiguous.  The bytes 251 and 254,
  which mark entries of the option table, are taken for options: `-\376` makes `check_or` read beyond the table,
  `-\373\373\373` makes `do_arg` write beyond the queue.  `--argv-file -1` follows a null pointer in `do_list`.

Noticed while reading, not stated as theorems: `dnstable_query_init` aborts for the source-info query
type that the header offers; the right side of the join and the
files to remove are stepped without looking at the deadline; limits set after opening a query without
limits have no effect; unaggregated file-set queries count the files twice; a malformed index key ends
an indirect query early; names longer than 255 bytes overflow the buffers of `query_init_*`; years above 9999 are cut to four digits.

## 8. Axioms

<!-- axioms -->
Theorems named in `MANIFEST.json` (all in `Verif.Props`), by the axioms `#print axioms` reports:

* no axioms (2): `C45_setfile_counterexample`, `C78_signal_counterexample`.
* `propext` (13): `C24_undefined_counterexample`, `C33_refused`, `C47_rdata_index_counterexample`,
  `C68_add_counterexample`, `C68_get_counterexample`, `C69_decode_value_partial`,
  `C69_encode_value_counterexample`, `C69_encode_value_partial`, `C72_counterexample`,
  `C78_counterexample`, `C80_counterexample`, `C80_leak_counterexample`, `C80_refuses`.
* `propext, Quot.sound` (91): `C07_merge_empty_absorbs`, `C07_zero_bitmaps_counterexample`,
  `C09_merge_aborts_counterexample`, `C10_damaged`, `C10_empty_value`,
  `C10_false_positive_counterexample`, `C10_overread_counterexample`,
  `C11_long_block_counterexample`, `C12_reverse_injective`, `C12_reverse_involution`,
  `C12_subdomain_iff_prefix`, `C15_fwd_index`, `C15_rev_index`, `C15_source_info`,
  `C16_index_key_injective`, `C16_kinds_disjoint`, `C16_rdata_key_injective`,
  `C16_rrset_key_injective`, `C17_diverge_counterexample`, `C17_overread_counterexample`,
  `C17_overwrite_counterexample`, `C17_unknown_type`, `C18_wildcard_look_alike_counterexample`,
  `C20_overread_counterexample`, `C21_other_type_counterexample`,
  `C22_unlisted_type_counterexample`, `C23_labels_counterexample`, `C23_length_counterexample`,
  `C24_shifts`, `C27_zero_last_counterexample`, `C28_zero_last_counterexample`,
  `C31_cleared_counterexample`, `C31_steps`, `C32_reuse_counterexample`,
  `C32_undecodable_counterexample`, `C33_absent_counterexample`, `C33_assembled`, `C33_clean`,
  `C33_index_partial`, `C33_lost_counterexample`, `C33_observing`, `C33_offset`,
  `C33_stage_partial`, `C33_stages_distinct`, `C34_counts_counterexample`, `C35_compare_is_lex`,
  `C35_compare_total_order`, `C37_bytewise`, `C37_printable`, `C37_string`, `C43_observable`,
  `C44_returned_counterexample`, `C45_kind`, `C45_row_counterexample`,
  `C46_unset_last_counterexample`, `C47_accessors_partial`, `C48_order_counterexample`,
  `C50_aggregated`, `C50_malformed_counterexample`, `C55_detach`, `C55_make`, `C55_value`,
  `C59_bounds_counterexample`, `C62_delivered`, `C64_files`, `C64_files_counterexample`,
  `C64_files_unaggregated_partial`, `C65_decoded`, `C66_zero_counterexample`, `C69_decode_partial`,
  `C69_encode`, `C69_length`, `C69_round_trip`, `C70_decode`, `C70_encode_partial`, `C70_refused`,
  `C70_room`, `C70_two`, `C70_two_counterexample`, `C73_printable`, `C73_read_partial`,
  `C77_within`, `C79_there`, `C80_all_partial`, `C80_reads`, `C80_serial_counterexample`,
  `C81_final`, `C81_mix`, `C81_same`, `C81_value`, `C81_within`.
* `propext, Classical.choice, Quot.sound` (290): `C01_decode64_value`, `C01_strict`,
  `C01_strict_counterexample`, `C01_varint32_roundtrip`, `C01_varint64_roundtrip`,
  `C02_varint_length`, `C02_varint_prefix_free`, `C03_pair_roundtrip`,
  `C03_triplet_injective_and_fits`, `C03_triplet_roundtrip`, `C04_merge_triplets`,
  `C04_merge_triplets_observed`, `C05_merge_any_grouping`, `C05_merge_order_independent`,
  `C06_merge_time_range`, `C06_merge_unknown`, `C06_merge_version`, `C07_merge_is_union`,
  `C08_merge_canonical`, `C08_merge_comm_idem`, `C09_merge_abort_iff`,
  `C09_merge_many_succeeds_partial`, `C09_merge_succeeds_partial`, `C10_exact_partial`,
  `C10_no_false_negative`, `C11_full_set_counterexample`, `C11_rejects_malformed_partial`,
  `C11_unpack_exact`, `C13_rrset_roundtrip`, `C14_rdata_roundtrip`, `C15_time_range`, `C15_version`,
  `C17_decode_safe_partial`, `C18_exact_rrset`, `C19_left_wildcard`, `C20_right_wildcard_any`,
  `C20_right_wildcard_partial`, `C21_exact_name_partial`, `C21_right_wildcard`,
  `C21_unsliced_counterexample`, `C22_left_wildcard_listed_partial`, `C22_left_wildcard_partial`,
  `C23_address_partial`, `C23_dashes`, `C23_overread_iff`, `C23_range_partial`, `C23_skip`,
  `C23_text_address_partial`, `C23_text_prefix4_partial`, `C23_text_prefix6_partial`,
  `C23_text_range_partial`, `C24_ip4_partial`, `C24_ip4_zero_counterexample`, `C24_ip6`,
  `C24_slashes`, `C24_too_long`, `C25_raw`, `C25_raw_short`, `C26_bailiwick`, `C26_rdata_name`,
  `C26_rrtype`, `C27_rdata_address_partial`, `C27_rdata_left_partial`, `C27_rdata_partial`,
  `C27_rdata_range_partial`, `C27_rdata_raw`, `C27_rdata_right_partial`, `C27_rrset`,
  `C27_rrset_left`, `C27_rrset_right_any`, `C27_rrset_right_partial`, `C27_view`,
  `C28_returned_partial`, `C29_ljoin`, `C29_ljoin_observations`, `C29_remove`, `C30_resume`,
  `C31_deadline`, `C31_unlimited`, `C32_offset`, `C33_query_offset`, `C33_query_partial`,
  `C33_reported`, `C34_order_partial`, `C34_preorder`, `C36_increment_is_successor`, `C38_json`,
  `C38_uint64`, `C38_unique`, `C38_vnum`, `C39_formatter_partial`, `C39_full_set_counterexample`,
  `C39_manual_counterexample`, `C39_members_partial`, `C39_plain_partial`,
  `C39_raw_overflow_counterexample`, `C39_source_counterexample`,
  `C39_type_truncated_counterexample`, `C39_wellformed`, `C40_accept`, `C40_decode`,
  `C40_roundtrip`, `C41_faithful`, `C41_json`, `C41_limits`, `C41_order`, `C42_categories`,
  `C42_entry_types`, `C42_stages`, `C43_address_counterexample`, `C43_clear_counterexample`,
  `C43_clear_partial`, `C43_failure_partial`, `C43_frame`, `C43_history_partial`,
  `C43_last_partial`, `C43_name_counterexample`, `C43_order_counterexample`, `C43_order_partial`,
  `C43_raw_counterexample`, `C44_filter`, `C44_returned_partial`, `C45_iter_partial`, `C45_stored`,
  `C46_loose`, `C46_strict_partial`, `C48_observations`, `C48_order_partial`, `C48_view`,
  `C49_terminates`, `C50_rdata_address_partial`, `C50_rdata_left_partial`, `C50_rdata_partial`,
  `C50_rdata_range_partial`, `C50_rdata_raw`, `C50_rdata_right_partial`, `C50_rrset`,
  `C50_rrset_left`, `C50_rrset_right_any`, `C50_rrset_right_partial`, `C51_lines_partial`,
  `C51_locale_counterexample`, `C51_plain_partial`, `C51_source_counterexample`,
  `C51_time_counterexample`, `C51_zone_comment_partial`, `C51_zone_partial`, `C51_zone_record`,
  `C52_asks_partial`, `C53_before1970_counterexample`, `C53_overflow_counterexample`,
  `C53_refused_partial`, `C53_saturation_counterexample`, `C53_short`, `C53_understood`,
  `C54_count`, `C54_ends`, `C54_json_partial`, `C54_prints`, `C54_prompt`, `C54_text_partial`,
  `C55_array`, `C55_array_step`, `C55_buffer`, `C55_buffer_step`, `C55_buffers`, `C55_cstr`,
  `C55_extend`, `C56_json_partial`, `C56_prints`, `C56_refuses`, `C56_text_partial`,
  `C56_unreadable`, `C57_number_counterexample`, `C57_refuses_partial`, `C57_starts_partial`,
  `C57_synopsis_counterexample`, `C58_ip_partial`, `C58_name_left_partial`, `C58_name_partial`,
  `C58_raw_partial`, `C58_refused_partial`, `C58_rrset_partial`, `C58_rrset_right_partial`,
  `C59_loose_time_range`, `C59_loose_version`, `C59_program_time_range_partial`,
  `C59_program_version_partial`, `C59_set_time_range`, `C59_set_version`, `C59_time_range`,
  `C59_version`, `C60_defined`, `C60_errors`, `C60_silent`, `C60_statistics`, `C61_kinds`,
  `C61_stale_counterexample`, `C61_told_partial`, `C61_unknown_counterexample`, `C61_valid`,
  `C62_cleanup`, `C62_entries`, `C62_iterator`, `C62_iterator_files`, `C62_iterator_unaggregated`,
  `C62_leak_counterexample`, `C62_released_partial`, `C62_safe`, `C63_exit_partial`,
  `C63_files_partial`, `C63_indirect_counterexample`, `C63_json_partial`,
  `C63_letter_counterexample`, `C63_manual_counterexample`, `C63_novalues_partial`, `C63_off`,
  `C63_run_partial`, `C63_text_partial`, `C63_value_counterexample`, `C64_exists`, `C64_success`,
  `C64_zero`, `C65_cleanup`, `C65_defaults`, `C65_entries`, `C65_format`, `C65_json`,
  `C65_released_partial`, `C65_safe`, `C65_settings`, `C65_strings`, `C65_text`,
  `C65_unknown_counterexample`, `C66_bounds`, `C66_many_partial`, `C66_merge_partial`,
  `C66_merge_portable`, `C67_abort_counterexample`, `C67_changed_counterexample`,
  `C67_current_partial`, `C67_exact_name`, `C67_exact_rrset`, `C67_ignored_counterexample`,
  `C67_left_rrset`, `C67_raw`, `C67_right_name`, `C67_type_kept_counterexample`, `C67_unchanged`,
  `C68_calls`, `C68_heapify_sorts`, `C68_safe`, `C68_sorts`, `C69_brace_counterexample`,
  `C69_room_counterexample`, `C70_empty_counterexample`, `C70_read`, `C70_round_trip_partial`,
  `C71_alone_partial`, `C71_counterexample`, `C71_init`, `C71_locked_partial`, `C71_order_partial`,
  `C71_progress_partial`, `C71_threads_partial`, `C72_partial`, `C73_counterexample`,
  `C74_bytes_partial`, `C74_counterexample`, `C74_uint16`, `C75_checksum`, `C75_detects`,
  `C75_slicing`, `C75_sse42`, `C76_counterexample`, `C76_missed_counterexample`, `C76_once_partial`,
  `C76_quiet`, `C76_reload_partial`, `C77_reads`, `C77_returns`, `C78_calls`, `C78_first`,
  `C78_pace_partial`, `C78_rate_partial`, `C79_lost_counterexample`, `C79_next`, `C79_once`,
  `C80_open_counterexample`, `C80_source_partial`.
<!-- end axioms -->
