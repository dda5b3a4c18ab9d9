{"id": "C01", "title": "Variable-length integers survive a write/read cycle", "statement": "Every unsigned 64-bit (and 32-bit) integer written in the table's variable-length integer format is read back as the same integer, and the reader consumes exactly the bytes the writer produced, whatever bytes follow.", "quantifier": "for every integer below 2^64 (2^32 for the 32-bit routines) and every byte string that follows it", "why_tests_cant": "2^64 values times all continuations; the 32-bit and 64-bit readers take different code paths by length, so sampled values miss shift or mask errors at one length.", "anchors": ["libmy/varint.c: varint_length, varint_length_packed, varint_encode32, varint_encode64, varint_decode32, varint_decode64"]}
{"id": "C02", "title": "Variable-length integers are self-delimiting", "statement": "No encoded integer is a proper prefix of another encoded integer, two different integers never have the same encoding, the encoded size equals the size announced beforehand and is at most 10 bytes (5 for 32-bit values), and the 32-bit and 64-bit writers produce the same bytes for the same value.", "quantifier": "for every pair of integers below 2^64", "why_tests_cant": "A property of all pairs; key prefix searches with an rrtype rely on it for every pair of rrtypes.", "anchors": ["libmy/varint.c: varint_encode32, varint_encode64, varint_length", "dnstable/query.c: add_rrtype_to_key"]}
{"id": "C03", "title": "Record values (first seen, last seen, count) round-trip and are parsed exactly", "statement": "A packed (time_first, time_last, count) value or (min, max) time range is unpacked to the same numbers, and a packed value with any non-empty suffix appended is rejected instead of being silently truncated.", "quantifier": "for every triple/pair of 64-bit integers and every trailing byte string", "why_tests_cant": "Unbounded input space; the accept condition (bytes consumed equals value length) must hold for all lengths.", "anchors": ["dnstable/triplet.c: triplet_pack, triplet_unpack, pair_pack, pair_unpack"]}
{"id": "C04", "title": "Aggregating two observations of a record", "statement": "When the same RRset or rdata record occurs in two data files, the aggregated record's first-seen time is the minimum, its last-seen time the maximum and its count the sum modulo 2^64 of the two; nothing else changes.", "quantifier": "for every RRset/rdata key and every two packed values", "why_tests_cant": "Covers all combinations of magnitudes and encodings, including wrap-around of the count.", "anchors": ["dnstable/merge.c: dnstable_merge_func", "man/dnstable_merge_func.3.txt"]}
{"id": "C05", "title": "Aggregation over any number of files is independent of file order and grouping", "statement": "The aggregated value of an RRset or rdata record over a set of files is the same whatever order the files are opened in and however partial merges are grouped.", "quantifier": "for every non-empty list of packed values, every permutation and every grouping into partial merges", "why_tests_cant": "Number of orders and groupings grows factorially; tests fix one order.", "anchors": ["dnstable/merge.c: dnstable_merge_func"]}
{"id": "C06", "title": "Aggregated time-range and version metadata", "statement": "Merging time-range metadata yields a range that is the smallest one covering both inputs; merging version metadata of a known entry type yields the lowest version; if any contributing file has legacy (empty) metadata the merged metadata is empty; the result does not depend on merge order.", "quantifier": "for every list of time-range or version values, in every order", "why_tests_cant": "All value combinations and orders, including the legacy empty value at any position.", "anchors": ["dnstable/merge.c: dnstable_merge_func", "dnstable/entry.c: decode_time_range, decode_version"]}
{"id": "C07", "title": "Merging name-index entries keeps every record type", "statement": "The record types advertised by a merged name-index entry are exactly the union of the types advertised by the two inputs, and an empty (type-less, legacy) entry on either side makes the result type-less (matching every type).", "quantifier": "for every two well-formed type sets in any of their encodings (one byte, two bytes, RFC 4034 bitmap)", "why_tests_cant": "2^65536 sets times encodings; a lost bit silently hides records from wildcard searches.", "anchors": ["dnstable/merge.c: merge_rrtype_bitmaps, sorted_merge_dedup", "dnstable/entry.c: rrtype_union_unpack", "man/dnstable-encoding.5.txt"]}
{"id": "C08", "title": "Merging name-index entries is independent of order and grouping", "statement": "For values produced by the writer's canonical encoding, merging name-index entries is commutative, associative and idempotent byte for byte.", "quantifier": "for every three canonical type-set values", "why_tests_cant": "Relational property over triples of arbitrary sets.", "anchors": ["dnstable/merge.c: merge_rrtype_bitmaps"]}
{"id": "C09", "title": "Merging well-formed name-index entries always succeeds", "statement": "Merging two well-formed type sets yields a merged value; it never aborts the process and never loses a type for lack of space.", "quantifier": "for every two well-formed type sets", "why_tests_cant": "The failing sets are large and sparse (many bitmap windows), far from ordinary test data.", "anchors": ["dnstable/merge.c: merge_rrtype_bitmaps"]}
{"id": "C10", "title": "Name-index type test never hides an existing type", "statement": "Testing a name-index entry for a record type answers yes whenever that type is in the entry's type set, and the test reads only the entry's bytes. (Exactness - answering no for absent types - is also claimed where it holds.)", "quantifier": "for every well-formed type set value and every 16-bit record type", "why_tests_cant": "All bitmaps and all types; a false negative drops results from wildcard queries, an over-read is undefined behaviour.", "anchors": ["dnstable/entry.c: rrtype_union_check, rrtype_test", "dnstable/query.c: query_iter_next_name_indirect"]}
{"id": "C11", "title": "Enumerating a name-index type set", "statement": "Enumerating the types of a name-index entry lists exactly the types in the set, each once, in increasing order, and rejects malformed bitmaps.", "quantifier": "for every byte string presented as a type set", "why_tests_cant": "All byte strings; the increasing-order guarantee is what makes the linear merge correct.", "anchors": ["dnstable/entry.c: rrtype_union_unpack, dnstable_entry_get_rrtypes", "dnstable/dnstable-private.h"]}
{"id": "C12", "title": "Name reversal is a lossless re-ordering", "statement": "Storing a domain name with its labels reversed loses nothing: reversing twice gives the original, and one name lies under another domain exactly when the reversed stored form starts with the reversed domain's labels.", "quantifier": "for every legal domain name and every pair of names", "why_tests_cant": "Names are unbounded label sequences with arbitrary bytes, including zero bytes and length-like bytes inside labels.", "anchors": ["dnstable/query.c: query_init_rrset_left_wildcard", "dnstable/entry.c: decode_rrset", "man/dnstable-encoding.5.txt"]}
{"id": "C13", "title": "RRset entries decode to what was encoded", "statement": "Decoding a key/value pair that follows the documented RRset layout returns the encoded owner name, record type, bailiwick, ordered list of record data, times and count (with the documented fix-ups of a zero count and zero last-seen time).", "quantifier": "for every owner, type, bailiwick, list of rdata and 64-bit times and count", "why_tests_cant": "Unbounded nested input: number and lengths of rdata, label structure, varint lengths.", "anchors": ["dnstable/entry.c: dnstable_entry_decode, decode_rrset, decode_val_triplet", "man/dnstable-encoding.5.txt"]}
{"id": "C14", "title": "Rdata entries decode to what was encoded, sliced or not", "statement": "Decoding a key/value pair that follows the documented rdata layout returns the owner, type and complete record data, both when the record data is stored contiguously and when its leading fields were moved to the end so that the embedded name comes first.", "quantifier": "for every owner, type, record data of at most 65535 bytes, slice position and 64-bit times and count", "why_tests_cant": "Slice positions and rdata contents interact with the trailing length field for unboundedly many inputs.", "anchors": ["dnstable/entry.c: decode_rdata", "man/dnstable-encoding.5.txt"]}
{"id": "C15", "title": "Index and metadata entries decode to what was encoded", "statement": "Decoding name-index, time-range, source-info and version entries laid out as documented returns the encoded name, times, text and version.", "quantifier": "for every name, pair of 64-bit times, source text, 32-bit version and version type", "why_tests_cant": "Unbounded input space.", "anchors": ["dnstable/entry.c: decode_rrset_name_fwd, decode_rdata_name_rev, decode_time_range, decode_source_info, decode_version"]}
{"id": "C16", "title": "Different records never share a key", "statement": "Two RRset (or two rdata, or two index) records that differ in owner, type, bailiwick or record data have different keys, so aggregation never adds up counts of different records.", "quantifier": "for every pair of records of one kind", "why_tests_cant": "A statement about all pairs of records of all shapes.", "anchors": ["dnstable/entry.c: decode_rrset, decode_rdata", "man/dnstable-encoding.5.txt"]}
{"id": "C17", "title": "Decoding arbitrary bytes is safe and terminates", "statement": "For every key/value byte string, decoding either fails or returns an entry, in finite time and without reading outside the key and value.", "quantifier": "for every key and value byte string", "why_tests_cant": "Malformed inputs that loop or over-read are specific byte patterns among all byte strings.", "anchors": ["dnstable/entry.c: dnstable_entry_decode, decode_rrset, decode_rdata, decode_val_triplet", "dnstable/triplet.c", "libmy/varint.c"]}
{"id": "C18", "title": "Exact RRset queries return exactly the matching RRsets", "statement": "A query for an owner name, optionally restricted to a record type and/or a bailiwick, returns every stored RRset with that owner, type and bailiwick, returns nothing else, and returns them in key order, each once.", "quantifier": "for every table of well-formed RRset entries and every owner, optional type and optional bailiwick", "why_tests_cant": "All tables and queries; relies on prefix-freeness of names and integers.", "anchors": ["dnstable/query.c: query_init_rrset, filter_rrtype, filter_bailiwick, query_iter_next"]}
{"id": "C19", "title": "Left-hand wildcard RRset queries", "statement": "A query for *.NAME returns exactly the RRsets whose owner is NAME or lies below NAME; a query for +.NAME returns exactly those with precisely one label in front of NAME; skipping ahead inside the table never omits a match.", "quantifier": "for every table of well-formed RRset entries, every base name and optional type and bailiwick", "why_tests_cant": "The skip-ahead logic depends on the neighbouring keys of arbitrary tables.", "anchors": ["dnstable/query.c: query_init_rrset_left_wildcard, is_left_wildcard, filter_single_label, increment_key"]}
{"id": "C20", "title": "Right-hand wildcard RRset queries", "statement": "A query for NAME.* returns exactly the RRsets whose owner starts with the labels of NAME, and NAME.+ exactly those with one further label, provided the table carries the documented name-index entries; they come in the order of their owner names, those of one owner in the order of the table.", "quantifier": "for every table with a complete name index, every base name and optional type and bailiwick", "why_tests_cant": "Joins an index scan with per-name lookups over arbitrary tables.", "anchors": ["dnstable/query.c: query_init_rrset_right_wildcard, is_right_wildcard, query_iter_next_name_indirect, rrtype_test"]}
{"id": "C21", "title": "Rdata name queries (exact and right-hand wildcard)", "statement": "A query for a domain name in record data returns exactly the records of name-bearing types whose stored data begins with that name (for a right wildcard: with those labels), filtered by type when one is given.", "quantifier": "for every table of well-formed rdata entries, every name and optional type", "why_tests_cant": "All tables and names; raw byte-prefix matching must coincide with name matching for every record layout.", "anchors": ["dnstable/query.c: query_init_rdata_name, query_init_rdata_right_wildcard, filter_rrtype, filter_rrtype_rdata_name"]}
{"id": "C22", "title": "Left-hand wildcard rdata name queries", "statement": "A query for *.NAME in record data returns exactly the records of name-bearing types whose name is NAME or below it (exactly one extra label for +.NAME), provided the table carries the documented reverse name index; they come in the order of these names read from the last label, those of one name in the order of the table.", "quantifier": "for every table with a complete reverse index, every name and optional type", "why_tests_cant": "Index scan joined with lookups over arbitrary tables.", "anchors": ["dnstable/query.c: query_init_rdata_left_wildcard, query_iter_next_name_indirect"]}
{"id": "C23", "title": "IP queries return exactly the addresses in range", "statement": "A query for an IP address, range or prefix returns every stored A (AAAA) record whose address lies in the range and nothing else; skipping ahead inside the table never omits a match and never moves backwards.", "quantifier": "for every table of well-formed rdata entries and every IPv4/IPv6 range", "why_tests_cant": "The skip-ahead target is computed from unrelated keys interleaved between the matches; the losing patterns are rare byte coincidences.", "anchors": ["dnstable/query.c: query_init_rdata_ip, filter_rrtype_ip, increment_key"]}
{"id": "C24", "title": "IP prefixes denote the right address range", "statement": "ADDRESS/LENGTH denotes exactly the addresses that agree with ADDRESS in the first LENGTH bits.", "quantifier": "for every address and every accepted prefix length", "why_tests_cant": "2^32 (2^128) addresses times all lengths, with shift-width corner cases.", "anchors": ["libmy/ip_arith.h: ip4_lower, ip4_upper, ip6_lower, ip6_upper", "dnstable/query.c: query_set_data_rdata_ip_prefix"]}
{"id": "C25", "title": "Raw rdata queries", "statement": "A raw query for a byte string returns exactly the rdata entries whose stored data followed by the type begins with the given bytes (and type, when given).", "quantifier": "for every table and every byte string", "why_tests_cant": "All tables and byte strings.", "anchors": ["dnstable/query.c: query_init_rdata_raw, filter_rrtype"]}
{"id": "C26", "title": "Type and bailiwick filters agree with the decoded entry", "statement": "The filters applied to stored keys accept a well-formed entry exactly when the decoded entry reports the requested type, respectively bailiwick.", "quantifier": "for every well-formed entry and every requested type / bailiwick", "why_tests_cant": "Two independent parsers of the same bytes must agree on all inputs.", "anchors": ["dnstable/query.c: filter_rrtype, filter_bailiwick, dnstable_query_filter", "dnstable/entry.c: decode_rrset, decode_rdata"]}
{"id": "C27", "title": "Time-fenced aggregated queries are equivalent to aggregate-then-filter", "statement": "A time-filtered aggregated query over a file set, which skips or specially treats files by their time-range metadata, returns exactly the records (with exactly the aggregated values) obtained by aggregating all files first and filtering afterwards.", "quantifier": "for every set of files with truthful time-range metadata and every combination of the four time bounds", "why_tests_cant": "Exponentially many ways records are spread over files relative to the bounds.", "anchors": ["dnstable/query.c: reader_time_filter, dnstable_query_iter_fileset, dnstable_query_iter_common, filter_time_prefilter, filter_time", "dnstable/query_mtbl.c: ljoin, remove"]}
{"id": "C28", "title": "Returned entries satisfy the query's own time filter", "statement": "Every entry returned by a query with time bounds is accepted by dnstable_query_filter() with the same query, and the time fields visible through the entry accessors satisfy the bounds.", "quantifier": "for every table, stored value and combination of bounds", "why_tests_cant": "Stored values with unusual times (for example a zero last-seen time) are treated by two code paths.", "anchors": ["dnstable/query.c: filter_time_common, dnstable_query_filter", "dnstable/entry.c: decode_val_triplet"]}
{"id": "C29", "title": "The join and removal operators implement their list meaning", "statement": "The left join yields every left record once, in order, with its value aggregated with the right record of the same key when present; the removal operator yields exactly the records whose key occurs in none of the removal tables; both never lose, duplicate or reorder records.", "quantifier": "for every sorted left table and every sorted right/removal tables", "why_tests_cant": "Interleavings of two or more sorted sequences of arbitrary length.", "anchors": ["dnstable/query_mtbl.c: ljoin_iter_next, ljoin_iter_seek, remove_iter_next, match_key"]}
{"id": "C30", "title": "A timed-out query can be resumed without loss", "statement": "If iteration reports a timeout, calling the iterator again continues where it left off: over any sequence of calls the entries delivered are exactly those an uninterrupted iteration delivers, in the same order, none lost and none repeated.", "quantifier": "for every query kind, every table and every schedule of timeouts", "why_tests_cant": "Timeouts can strike before any internal step; the number of schedules is unbounded.", "anchors": ["dnstable/query.c: query_iter_next, query_iter_next_name_indirect, query_iter_set_deadline", "dnstable/query_mtbl.c: timeout_iter_next"]}
{"id": "C31", "title": "Deadlines are honoured", "statement": "The effective deadline of an iterator call is the earlier of the absolute deadline and now plus the relative timeout; once the clock has reached it no further table step is taken and the call reports a timeout.", "quantifier": "for every clock behaviour, timeout and deadline", "why_tests_cant": "Depends on all clock readings and carry cases of seconds/nanoseconds.", "anchors": ["dnstable/query.c: query_iter_set_deadline, dnstable_query_set_timeout, dnstable_query_set_deadline", "libmy/my_time.h", "dnstable/query_mtbl.c: timeout_iter_next"]}
{"id": "C32", "title": "The offset skips exactly the requested number of rows", "statement": "With offset n a query returns the rows of the same query without offset minus its first n, also across timeouts and multi-lookup wildcard queries; issuing the same query object again gives the same rows.", "quantifier": "for every table, query, offset and timeout schedule", "why_tests_cant": "Interaction of a mutable counter with iteration, timeouts and repeated use.", "anchors": ["dnstable/query.c: filter_offset, dnstable_query_set_offset, dnstable_query_iter_common"]}
{"id": "C33", "title": "Statistics account for every row", "statement": "The per-stage counters account exactly for the rows rejected: at every stage rows entering equal rows passed on plus rows counted as filtered, and the offset stage's filtered count is the smaller of the offset and the number of rows.", "quantifier": "for every table, query, and number of iterator calls", "why_tests_cant": "Counter invariants over all histories.", "anchors": ["dnstable/query_mtbl.c: filter_mtbl_get_counter", "dnstable/query.c: query_iter_get_count", "dnstable/iter.c: dnstable_iter_get_count"]}
{"id": "C34", "title": "Unaggregated results have a deterministic order", "statement": "Without aggregation, rows of equal key are ordered by a consistent total preorder on their times and counts, so the result order is independent of file order.", "quantifier": "for every three values of one key", "why_tests_cant": "Transitivity/antisymmetry over all triples; an inconsistent comparator breaks the external sort.", "anchors": ["dnstable/query.c: dnstable_dupsort_func"]}
{"id": "C35", "title": "Key comparison is the lexicographic total order", "statement": "The byte-string comparison used to merge, join and seek is a total order: reflexive, antisymmetric, transitive, a proper prefix sorts first, and it agrees with the table's key order.", "quantifier": "for every two and three byte strings", "why_tests_cant": "Order axioms over all triples of strings.", "anchors": ["dnstable/dnstable-private.h: bytes_compare"]}
{"id": "C36", "title": "The skip-ahead key is the immediate successor", "statement": "The computed skip-ahead key is the smallest key of its length greater than every key starting with the skipped prefix, or is reported impossible exactly when all bytes are 0xFF.", "quantifier": "for every byte string and position", "why_tests_cant": "Carry propagation over arbitrary runs of 0xFF bytes.", "anchors": ["dnstable/query.c: increment_key"]}
{"id": "C37", "title": "JSON strings are escaped reversibly and safely", "statement": "Every byte string put into a JSON string value is escaped so that no quote, backslash or control character appears raw and a JSON reader recovers exactly the original bytes.", "quantifier": "for every byte string", "why_tests_cant": "All byte strings; record text is attacker-controlled.", "anchors": ["dnstable/dnstable-json.h: append_json_string_escaped, append_json_value_string"]}
{"id": "C38", "title": "Numbers are printed exactly", "statement": "Every 64-bit number is printed as its canonical decimal numeral (no leading zeros) within the provided buffer, and reading it back gives the number.", "quantifier": "for every integer below 2^64", "why_tests_cant": "2^64 values.", "anchors": ["dnstable/dnstable-json.h: vnum_to_str, append_json_value_int", "libmy/my_format.c: my_uint64_to_str"]}
{"id": "C39", "title": "JSON output is well-formed and complete", "statement": "The JSON rendering of every entry, under every formatter setting, is a syntactically valid JSON object whose members are exactly the documented ones with the entry's values.", "quantifier": "for every decoded entry of every type and every formatter configuration", "why_tests_cant": "All entries times all configurations; punctuation depends on optional fields.", "anchors": ["dnstable/entry.c: dnstable_entry_to_json_fmt, fmt_rrtypes_union_json"]}
{"id": "C40", "title": "Hexadecimal input and output are inverse", "statement": "A hexadecimal query string is accepted exactly when it is non-empty, of even length and made of hex digits, and then denotes exactly the bytes written; raw record data printed in hex reads back to the same bytes.", "quantifier": "for every character string and byte string", "why_tests_cant": "All strings.", "anchors": ["libmy/hex_decode.h: hex_to_int, hex_decode", "dnstable/entry.c: fmt_hex_str", "dnstable/query.c: query_set_data_rdata_raw"]}
{"id": "C41", "title": "RFC 3339 timestamps are faithful", "statement": "Every time from the epoch to the end of year 9999 is printed as YYYY-MM-DDThh:mm:ssZ of the corresponding UTC time; different times print differently and the textual order is the time order.", "quantifier": "for every second from 1970 to the end of 9999", "why_tests_cant": "2.5*10^11 values with calendar irregularities.", "anchors": ["dnstable/entry.c: fmt_rfc3339_time, fmt_time", "libmy/my_format.c: my_uint64_to_str"]}
{"id": "C42", "title": "Symbolic names convert both ways", "statement": "Entry-type names, statistics stage names and category names convert to values and back without loss; every unknown name or value is rejected.", "quantifier": "for every string and every enumeration value", "why_tests_cant": "Rejection is a statement about all strings.", "anchors": ["dnstable/entry.c: dnstable_entry_type_to_string, dnstable_entry_type_from_string", "dnstable/util.c"]}
{"id": "C43", "title": "Query parameter setters", "statement": "Each parameter setter either succeeds and sets exactly its parameter or fails and leaves the query usable with the previous parameters; clearing a parameter restores the unset behaviour; parameters are independent of the order in which they are set.", "quantifier": "for every sequence of setter calls", "why_tests_cant": "Histories of calls; stale state appears only after particular sequences.", "anchors": ["dnstable/query.c: dnstable_query_set_data, dnstable_query_set_rrtype, dnstable_query_set_bailiwick, dnstable_query_set_filter_parameter, query_set_data_rdata_raw, query_set_data_rdata_ip"]}
{"id": "C44", "title": "dnstable_query_filter() decides the documented predicate", "statement": "dnstable_query_filter() accepts an entry exactly when it has the requested type, the requested bailiwick and times within every bound that is set, and every entry returned by a query is accepted by it.", "quantifier": "for every query and entry", "why_tests_cant": "All combinations of optional criteria and values.", "anchors": ["dnstable/query.c: dnstable_query_filter"]}
{"id": "C45", "title": "Full-table iteration returns every decodable entry of the kind", "statement": "The reader's per-kind iterators return exactly the decodable entries of that kind in key order, and the all-entries iterator returns all decodable entries.", "quantifier": "for every table", "why_tests_cant": "All tables, including ones with undecodable rows in any position.", "anchors": ["dnstable/reader.c: reader_iter_next, dnstable_reader_iter, dnstable_reader_iter_rrset, dnstable_reader_iter_rdata"]}
{"id": "C46", "title": "Strict time mode of the command-line lookup", "statement": "With -c, the bounds handed to the library select exactly the records entirely inside the -A/-B bounds (and inside any -a/-b bounds given).", "quantifier": "for every combination of the four bounds and every record", "why_tests_cant": "All relative orders of four bounds and two times.", "anchors": ["src/dnstable_lookup.c: main"]}
{"id": "C47", "title": "Entry accessors are total", "statement": "Every accessor either returns the field of an entry of a kind that has it or reports failure; indexing record data beyond the last element reports failure.", "quantifier": "for every entry and every index", "why_tests_cant": "All entries and indices, including one past the end.", "anchors": ["dnstable/entry.c: dnstable_entry_get_rrname, dnstable_entry_get_rdata, dnstable_entry_get_rrtype, dnstable_entry_get_count"]}
{"id": "C48", "title": "Aggregating files is a set-wise union of records", "statement": "The aggregated view of a set of files contains a key exactly when some file does, each key once, in order, with the merge of all its values; opening the files in another order gives the same view.", "quantifier": "for every list of sorted files and every permutation of it", "why_tests_cant": "All distributions of keys over any number of files.", "anchors": ["dnstable/merge.c: dnstable_merge_func", "dnstable/reader.c: dnstable_reader_init_setfile"]}
{"id": "C49", "title": "Every iterator call terminates", "statement": "Every call of a query iterator returns after finitely many steps: no combination of seeks, filters, removal, joining and wildcard lookups makes it loop for ever.", "quantifier": "for every sorted table with decodable names, every query and every schedule of time limits", "why_tests_cant": "Loops depend on the interplay of stored keys, seek targets and the clock; a test cannot observe non-termination nor cover all tables.", "anchors": ["dnstable/query.c: query_iter_next, query_iter_next_name_indirect, filter_single_label, filter_rrtype_ip", "dnstable/query_mtbl.c: filter_iter_next, remove_iter_next, ljoin_iter_next"]}
{"id": "C50", "title": "Unaggregated queries over a file set", "statement": "A query over a set of files with aggregation off delivers exactly the records of the single files that the query asks for and whose own first-seen, last-seen times satisfy the query's time bounds, each as often as the files contain it, with its own times and count; they come in key order and, within a key, in the order of their times; wildcard queries answered by a name index go by the names of the index first.", "quantifier": "for every list of well-formed files, every query kind, every time bound, every choice the merger makes between equal rows, and every clock", "why_tests_cant": "The order of duplicates, the files left out because of their time range and the number of files combine in unboundedly many ways.", "anchors": ["dnstable/query.c: dnstable_query_iter_fileset, reader_time_filter, dnstable_dupsort_func, query_iter_next_name_indirect"]}
{"id": "C51", "title": "Text form of entries", "statement": "The text form of every entry consists of exactly the documented lines and states the entry's values: comment lines (starting with two semicolons) for bailiwick, count, first- and last-seen times, and one line per record that reads back, as a zone file line, to the owner name, class IN, record type and record data of the entry; times are shown in the form asked for.", "quantifier": "for every legal record of every kind, zone flag, date form, locale and time zone rendering", "why_tests_cant": "The output depends on arbitrary times, counts, names, rdata and the locale's digit grouping; samples cannot show that no value is misprinted or that the number buffers suffice.", "anchors": ["dnstable/entry.c: dnstable_entry_to_text_fmt, dnstable_entry_to_text, dnstable_formatter_set_output_format, dnstable_entry_format, fmt_uint64, fmt_time, fmt_rrtypes_union"]}
{"id": "C52", "title": "Accepted query parameters", "statement": "Every parameter setter succeeds exactly for the arguments its documentation allows - record type mnemonics, the names for any type in any letter case, names, addresses, ranges of two addresses of one family, prefixes with a length within the address width, hexadecimal strings, entry type names for version queries, 64-bit filter parameters - and then makes the query ask for exactly what the argument denotes.", "quantifier": "for every argument text, every kind of query and every state of the query object", "why_tests_cant": "The argument texts are unbounded strings; acceptance of one unlisted form, or a wrong meaning of one accepted form, cannot be excluded by samples.", "anchors": ["dnstable/query.c: dnstable_query_set_data, dnstable_query_set_rrtype, dnstable_query_set_bailiwick, dnstable_query_set_filter_parameter, query_set_data_rdata_ip_range, query_set_data_rdata_ip_prefix, query_set_version_type", "libmy/hex_decode.h: hex_decode"]}
{"id": "C53", "title": "Time arguments of dnstable_lookup", "statement": "The time options of dnstable_lookup understand exactly the documented texts: the four ISO 8601 forms as that moment in UTC, a number as seconds since 1970, a negative number as that many seconds before now, and positive numbers with the units W, D, H, M, S (either case) as the sum of those spans before now; a text that is none of these, or denotes 1970-01-01T00:00:00Z or anything earlier, is refused.", "quantifier": "for every argument text, every current time and every libc whose calendar functions keep their contract", "why_tests_cant": "Argument texts are unbounded and mix numbers, units, signs and white space; the arithmetic can overflow only for numbers nobody thinks of testing, and acceptance of one wrong form cannot be excluded by samples.", "anchors": ["src/dnstable_lookup.c: parse_time, main (options -a, -A, -b, -B)", "man/dnstable_lookup.1.txt: DATE TIME SPECIFICATION"]}
{"id": "C54", "title": "Output of dnstable_lookup under time limits", "statement": "dnstable_lookup writes, for a query, the records the query delivers after the requested offset, each one once and in order - in text form with an empty line after every RRset, as one JSON object per line with -j or -J, nothing with -n - and counts them. Progress intervals (-i) interrupt and resume the query without losing or repeating a record. It stops before the end of the answer only if -t was given and that many seconds have passed since the start; and it does end, at the end of the answer or once the clock has passed that time, printing nothing after the first clock reading past it.", "quantifier": "for every query, database, number of calls, clock behaviour (normalised and non-negative readings), -t and -i values and combination of output options", "why_tests_cant": "When a deadline strikes depends on the clock between any two records; losing or repeating one record on resumption shows up only for particular interleavings, which tests cannot enumerate.", "anchors": ["src/dnstable_lookup.c: print_entry, do_dump, main (time limits)", "libmy/my_time.h: my_timespec_add, my_timespec_cmp", "dnstable/query.c: dnstable_query_set_deadline, query_iter_next"]}
{"id": "C55", "title": "Growable buffers hold what was put into them", "statement": "Whatever sequence of operations is applied to one of the growable arrays and byte buffers the library keeps its keys, texts and record lists in - adding, appending, reserving room and writing through the end pointer, clipping, resetting, handing out, adding C strings and formatted text, terminating - it then holds exactly the elements those operations denote, no write falls outside its storage, the storage is at most twice what was needed (or as large as before), and the process is aborted only if memory runs out. A terminated buffer has a NUL inside its storage.", "quantifier": "for every element size up to 2^31, every initial size hint, every sequence of operations of any lengths, and every behaviour of the allocator that refuses requests of 2^63 bytes or more", "why_tests_cant": "Capacity arithmetic wraps around modulo 2^64 and storage moves at sizes that depend on the whole history of operations; tests see only some histories and cannot see a write just behind the storage.", "anchors": ["libmy/vector.h: VECTOR_GENERATE", "libmy/ubuf.h: ubuf_add_cstr, ubuf_add_fmt, ubuf_cterm, ubuf_rstrip", "libmy/my_alloc.h: my_malloc, my_realloc"]}
{"id": "C56", "title": "What dnstable_dump prints", "statement": "dnstable_dump with one of its section options writes exactly the records of that section of the file, each once and in key order, and then ends successfully: as JSON with -j (one object per line, times as numbers, raw data exactly with -R), otherwise as text with an empty line after every record other than those of -d. It refuses -R without -j and for sections other than -r and -d, and files that cannot be opened, without writing anything.", "quantifier": "for every file of well-formed records, every section, every combination of -j and -R", "why_tests_cant": "Which records appear, in which order and with which separators depends on the whole content of the file; tests compare a few dumps.", "anchors": ["src/dnstable_dump.c: main, do_dump, print_entry", "dnstable/reader.c: dnstable_reader_iter_rrset and its siblings", "man/dnstable_dump.1.txt"]}
{"id": "C57", "title": "What a command line of dnstable_lookup means", "statement": "dnstable_lookup goes on to run a query exactly for proper command lines: one of the documented commands with the documented arguments (no slash in an owner name), every option known and with a readable time or a positive number, options that go together (-O and -R only for records, -n without -j, -J, -R, at most one of -j and -J, -R only with one of them), exactly one of the two environment variables set, -u only with a set file, a file that can be opened. The query is then the one the arguments denote, with the times, offset, case and aggregation of the options, where the last occurrence of an option counts. Every other command line makes it exit with failure.", "quantifier": "for every list of options as reported by getopt, every list of arguments, every environment, every clock and library behaviour within contract", "why_tests_cant": "The combinations of options, repetitions, arguments and environments are unbounded; tests try a few lines.", "anchors": ["src/dnstable_lookup.c: main, usage", "dnstable/query.c: setters", "man/dnstable_lookup.1.txt"]}
{"id": "C58", "title": "What dnstable_lookup answers", "statement": "Started with a proper command line, dnstable_lookup writes exactly those records of the table or set file (aggregated, or with -u of all its tables) that have the owner, type and bailiwick, the name or data, or the address, range or prefix given as arguments and times as asked with -a, -A, -b, -B and -c; each once, in key order (with a name index, in the order of its names first), except for as many first ones as -O says; in the form asked for with -j, -J, -R or -n; and then tells how many there were. At no time has it written anything else; only if the time given with -t has passed may the last ones be missing, and then it says so. Without -t and -i it ends, and with -t it ends once the time is over. For other command lines it writes nothing and exits with failure.", "quantifier": "for every table and set of tables of well-formed records, every command line, environment and behaviour of the clock, after any number of steps", "why_tests_cant": "It is the composition of everything: arguments, merge, filters, index, limits and output; tests see a few files and queries.", "anchors": ["src/dnstable_lookup.c: main, do_dump, print_entry", "dnstable/query.c: dnstable_query_iter, dnstable_query_iter_fileset", "dnstable/reader.c: dnstable_reader_query", "man/dnstable_lookup.1.txt"]}
{"id": "C59", "title": "Queries for time ranges and versions", "statement": "A query for the time range of a table delivers the time range it has, and nothing if it has none. Over an aggregated set of tables it delivers a single one, from the earliest start to the latest end of those of the tables; over an unaggregated set, those of all tables. A query for versions delivers for every kind of entries its version, or only for the kind given; over an aggregated set the least version any table has for the kind, over an unaggregated set all of them. The commands time_range and version of dnstable_lookup write exactly these.", "quantifier": "for every table and set of tables of well-formed records, every query of these types without bounds on times, offset, time limit and behaviour of the clock, in any sequence of calls", "why_tests_cant": "The entries are merged from arbitrarily many tables and are found among all other entries by their prefix; tests see a few tables. That bounds on times make these queries read past the end of values shows up in no result.", "anchors": ["dnstable/query.c: query_init_time_range, query_init_version, filter_time_common", "dnstable/merge.c: dnstable_merge_func", "src/dnstable_lookup.c: main", "man/dnstable_lookup.1.txt", "man/dnstable-encoding.5.txt"]}
{"id": "C60", "title": "Statistics of dnstable_lookup", "statement": "Without -s and -i dnstable_lookup writes nothing to the standard error stream but its last lines. With one -s it writes, before them, for each category of counters the sum over all stages that have such a counter; with -ss every counter there is, with the names of its stage and category; then the number of entries written so far and the time since the start, to the nanosecond, all in aligned columns. With -i it writes such a block also whenever an interval is over: consecutive blocks due to time limits are at least the interval apart unless -t ended the program. Each block counts exactly the entries written before it, and the last one has the final count and counters.", "quantifier": "for every query, table, filler and removal tables, combination of -s, -i and -t, number of calls, state of the counters, content of uninitialised variables, and clock that does not go back", "why_tests_cant": "The blocks depend on when the clock passes a deadline relative to the calls of the iterator, which tests do not control; that uninitialised variables passed to dnstable_iter_get_count never matter has to be known for every stage and category.", "anchors": ["src/dnstable_lookup.c: do_dump_stats_stage, do_dump_stats_category, do_dump", "dnstable/iter.c: dnstable_iter_get_count", "dnstable/query.c: query_iter_get_count", "libmy/my_time.h: my_timespec_sub", "man/dnstable_lookup.1.txt"]}
{"id": "C61", "title": "Error texts of queries", "statement": "When a function that sets up a query fails, dnstable_query_get_error returns a string that says why, whichever calls came before; functions that succeed do not change it, and if none has failed it is \"unknown error\". The string stays readable and the same until another call fails or the query is destroyed, however often dnstable_query_get_error is called.", "quantifier": "for every type of query that can be created, every sequence of calls with every argument, and every behaviour of the functions that parse names, types and addresses", "why_tests_cant": "The text is kept in memory that is freed and allocated again by calls of other functions; whether a string given out earlier is still allocated depends on the whole sequence of calls and is seen in no result.", "anchors": ["dnstable/query.c: query_set_err, query_load_name, query_load_address, dnstable_query_get_error, dnstable_query_set_data, dnstable_query_set_bailiwick, dnstable_query_set_rrtype, dnstable_query_set_filter_parameter, dnstable_query_destroy", "man/dnstable_query.3.txt"]}
{"id": "C62", "title": "Lifetimes of queries, readers, iterators and entries", "statement": "A program that creates queries, readers, iterators and entries, uses them in any order and destroys them, keeping to the documented rules (a query outlives its iterators), never makes the library free a block twice or use a freed block. Destroying an object sets the pointer to NULL, destroying NULL does nothing, and when everything is destroyed, all memory the library has allocated is released. An entry keeps its data until it is destroyed, even after the iterator is advanced or destroyed and the query and reader are destroyed.", "quantifier": "for every sequence of calls on any number of objects, all contents of files, all behaviours of mtbl's iterators and of the functions that parse names and types, and a time limit that expires at any moment", "why_tests_cant": "Which stages, copies and merged iterators exist depends on the kind of query, the options and the files; use after release and lost blocks show in no result, only in orders of calls that no test lists.", "anchors": ["dnstable/query.c: query_iter_free, dnstable_query_iter_common, dnstable_query_iter_fileset, reader_time_filter, query_iter_next_name_indirect, dnstable_query_destroy", "dnstable/query_mtbl.c: filter_mtbl_destroy, timeout_mtbl_destroy, ljoin_mtbl_destroy, remove_mtbl_destroy, remove_iter_free", "dnstable/reader.c: dnstable_reader_init_setfile, dnstable_reader_destroy, reader_iter_free", "dnstable/iter.c: dnstable_iter_destroy", "dnstable/entry.c: dnstable_entry_decode, dnstable_entry_destroy", "man/dnstable_reader.3.txt"]}
{"id": "C63", "title": "Command line of dnstable_dump", "statement": "dnstable_dump started with any arguments ends successfully without output when help is asked for, ends with failure and without output when an option is unknown, ambiguous or malformed, or not exactly one section and one file are named, and otherwise dumps exactly the section named, of the file named, as JSON when -j and with raw data when -R is on. Short options can be put together, long ones abbreviated, the last value of an option counts, arguments in the environment come first, and nothing after -- is an option. Arguments kept in a file named by --argv-file stand for its lines.", "quantifier": "for all lists of arguments and environments, all tables and names of files", "why_tests_cant": "The argument library gives meaning to abbreviations, joined letters, values, separators and the environment; their combinations, and bytes the library uses itself, are beyond any list of command lines.", "anchors": ["libmy/argv.c: argv_process, do_list, do_arg, check_or, check_xor, check_mand, string_to_value, file_args, process_env", "libmy/argv.h: ARGV_LAST, ARGV_MAND, ARGV_XOR", "src/dnstable_dump.c: args, main", "man/dnstable_dump.1.txt"]}
{"id": "C64", "title": "Counters that exist and files counted", "statement": "For every stage and category, dnstable_iter_get_count sets *exists exactly if the query has the stage and the stage keeps that counter, and then succeeds with that counter's value; for a stage the query lacks it fails with a count of 0, except that the second source of a query without one is answered. The numbers of files reported for the file set, the fill source and the removal add up to the number of files of the set, each file being counted where it is used.", "quantifier": "for every query, every set of files, every stage and category, at any time of the iteration", "why_tests_cant": "Which stages exist depends on all parameters of the query, and where a file is counted on its times; tests fix both.", "anchors": ["dnstable/query.c: query_iter_get_count, get_counter, reader_time_filter, dnstable_query_iter_fileset", "dnstable/query_mtbl.c: filter_mtbl_get_counter, ljoin_mtbl_get_counter, remove_mtbl_get_counter", "dnstable/iter.c: dnstable_iter_get_count", "man/dnstable_iter.3.txt"]}
{"id": "C65", "title": "Strings returned by the output functions belong to the caller", "statement": "dnstable_entry_to_text, dnstable_entry_to_json and dnstable_entry_format return a new zero-terminated string with the text of the entry and leave no other memory behind; the string keeps its address and bytes, whatever the program does with entries, formatters, iterators and other strings, until the program frees it. A formatter starts with the documented defaults and has the last setting of each kind made with it. However the program mixes these calls with queries, readers and iterators, it never uses or frees memory that is gone, and destroying its objects and freeing its strings releases everything.", "quantifier": "for every sequence of calls that uses live objects only, every content of the files, every behaviour of the libraries within their documentation", "why_tests_cant": "Ownership errors show only in particular orders of destroying and freeing, and a leak or a dangling pointer need not change any output.", "anchors": ["dnstable/entry.c: dnstable_entry_to_text_fmt, dnstable_entry_to_json_fmt, dnstable_formatter_init, dnstable_formatter_destroy, dnstable_entry_format", "libmy/ubuf.h: ubuf_cterm", "libmy/vector.h: detach", "man/dnstable_entry.3.txt"]}
{"id": "C66", "title": "Merged values are handed over in memory of the caller", "statement": "dnstable_merge_func answers with a newly allocated block that begins with the merged value and stores the value's length, or with NULL and no allocation for damaged type sets; it writes neither outside of that block nor outside of its buffers, whatever the values are, and touches no other memory. A merger that frees each result after use ends with the memory it began with.", "quantifier": "for every key, all values of any bytes, any number of values, any contents of fresh memory", "why_tests_cant": "Overflows of the 32-byte result or of the bitmap buffers need particular numbers and type sets, and fresh memory differs from run to run.", "anchors": ["dnstable/merge.c: dnstable_merge_func, merge_rrtype_bitmaps", "dnstable/triplet.c: triplet_pack, pair_pack", "libmy/my_alloc.h", "man/dnstable_merge_func.3.txt"]}
{"id": "C67", "title": "Changing a query while one of its iterators is open", "statement": "Setters for the data (except for address queries), case sensitivity, aggregation, timeout and deadline leave the answers of an iterator opened before as they are, apart from the time limits of later calls. Whatever setters are called between the calls of dnstable_iter_next, an entry that is returned meets every criterion the query had when the iterator was opened, with the value the criterion has at that call. Over a single table of stored records, each call for RRsets by owner (exact or below a name) or for records by raw data or by a name in their data (exact or with a wildcard at the end) passes over those that do not meet these present criteria and returns the first that does.", "quantifier": "for every query that can be opened, all tables and file sets however malformed, all sequences of setter calls and iterator calls, all clocks", "why_tests_cant": "Tests configure a query once; the sequences in which a program may interleave setters with iteration are unbounded.", "anchors": ["dnstable/query.c: struct query_iter, filter_rrtype, filter_rrtype_ip, filter_bailiwick, filter_time, dnstable_query_set_*", "man/dnstable_reader.3.txt"]}
{"id": "C68", "title": "Heap of pointers", "statement": "Through any sequence of heap_push, heap_add, heap_heapify, heap_pop, heap_replace, heap_peek and heap_get a heap holds the items put in and not yet taken out. As long as heap_heapify follows heap_add, heap_pop, heap_peek and heap_replace give an item such that no item of the heap is before it, or NULL for an empty heap; pushing items and popping them all sorts them. No call touches memory outside the array.", "quantifier": "for all sequences of calls on a new heap (fewer than 2^64), all items, all comparison functions that order the items strictly (memory safety: all comparison functions)", "why_tests_cant": "The sequences of operations and the orders among the items are unbounded; a wrong turn in a sift shows only for some shapes of the tree.", "anchors": ["libmy/heap.c: siftdown, siftup, heap_push, heap_pop, heap_replace, heap_heapify, heap_add, heap_peek, heap_get"]}
{"id": "C69", "title": "Base 64 coding in blocks", "statement": "However data is cut into blocks, base64_encode_block on each and base64_encode_blockend write the RFC 4648 base 64 text of the whole, four characters for every three bytes or part of them. However a text is cut into blocks, base64_decode_block on each gives the bytes its digits stand for, passing over other characters. What was encoded is decoded to the same bytes. base64_encode_value gives the digit of a value and = for values above 63, base64_decode_value the value of a digit, -2 for = and -1 for other characters.", "quantifier": "for all byte strings and texts, all cuttings into blocks", "why_tests_cant": "All strings and all ways of cutting them are unbounded; the coders are resumable state machines.", "anchors": ["libmy/b64_encode.c: base64_encode_value, base64_encode_block, base64_encode_blockend", "libmy/b64_decode.c: base64_decode_value, base64_decode_block"]}
{"id": "C70", "title": "Base 32 coding", "statement": "base32_encode writes the RFC 4648 base 32 text with the extended hex alphabet, without padding, up to the size given. base32_decode gives the bytes that digits of either case stand for, up to the size given, refuses a text with another character read before the destination is full, and never writes beyond the size. The text of a byte string, padded or not, is decoded to it, and so is what was encoded.", "quantifier": "for all byte strings, texts and sizes", "why_tests_cant": "Strings and sizes are unbounded; the last group has four different shapes.", "anchors": ["libmy/b32_encode.c: base32_encode", "libmy/b32_decode.c: base32_decode"]}
{"id": "C71", "title": "Queue of one producer and one consumer", "statement": "my_queue_init makes a queue exactly for powers of two from 2 on. Whatever the order in which the steps of a thread that calls my_queue_insert and of a thread that calls my_queue_remove come, the items removed are the first of those whose insertion succeeded, in their order and with all their bytes; an insertion is refused only when num_entries - 1 items are in the queue, and a removal only when it is empty; the number reported is at most the places free, or the items there, when the call returns, and exact if no other call goes on meanwhile. Each call returns after a bounded number of its own steps, and none touches memory outside the data.", "quantifier": "for all sizes and numbers of entries, all items, all interleavings of the steps of the two threads (memory sequentially consistent), all sequences of calls under the lock", "why_tests_cant": "The interleavings of two threads are unbounded and tests see only the few that the scheduler produces; positions wrap around.", "anchors": ["libmy/my_queue_mb.c: my_queue_mb_init, my_queue_mb_insert, my_queue_mb_remove, q_space, q_count", "libmy/my_queue_mutex.c: my_queue_mutex_insert, my_queue_mutex_remove", "libmy/my_queue.h"]}
{"id": "C72", "title": "Replacing in a string", "statement": "string_replace returns the string in which every occurrence of the second argument, found from the left without overlap, is replaced by the third, and which is otherwise the first argument.", "quantifier": "for all strings", "why_tests_cant": "Strings are unbounded, and occurrences may overlap, touch, lie at either end or arise from the replacement.", "anchors": ["libmy/string_replace.h: string_replace"]}
{"id": "C73", "title": "Writing a string in quotes", "statement": "print_string writes a quote, only printable ASCII characters, and a quote, and what it writes can be read back to the bytes it was given.", "quantifier": "for all byte strings (C locale)", "why_tests_cant": "Byte strings are unbounded; an ambiguous escape shows only for particular pairs.", "anchors": ["libmy/print_string.h: print_string"]}
{"id": "C74", "title": "Bytes and numbers as hexadecimal text", "statement": "my_bytes_to_hex_str writes two digits of the requested case for each byte, as many bytes as there is room for before a NUL, and the NUL, changes nothing else in the destination and nothing outside it, and returns the number of digits. my_uint16_to_hex_str writes four digits that stand for the number.", "quantifier": "for all byte strings, destinations of any size and contents, both cases of letters, all 16-bit numbers", "why_tests_cant": "Every combination of length and room has its own end of the text; an off-by-one or a wrap-around shows only for particular sizes.", "anchors": ["libmy/my_format.c: my_bytes_to_hex_str, my_uint16_to_hex_str, _my_byte_to_hex_str"]}
{"id": "C75", "title": "Checksum CRC-32C", "statement": "my_crc32c returns the CRC-32C of the bytes it is given, whichever implementation the processor gets and wherever the bytes lie, and reads nothing behind them, and where there is no instruction for it no word at an address that is not divisible by four. The checksum changes when anything is changed within four bytes that follow each other.", "quantifier": "for all byte strings of any length, all addresses, processors with and without the instruction", "why_tests_cant": "Messages are unbounded, and the 2048 table entries, the alignments and the lengths modulo eight each take their own way through the code; one wrong entry shows only for some messages.", "anchors": ["libmy/crc32c.c: my_crc32c", "libmy/crc32c-slicing.c: my_crc32c_slicing, g_crc_slicing", "libmy/crc32c-sse42.c: my_crc32c_sse42"]}
{"id": "C76", "title": "Set of files that follows a set file", "statement": "When my_fileset_reload finds the set file changed and can read it, my_fileset_get enumerates in ascending order exactly the listed files that exist; a file that was in the set keeps its pointer without a callback, each other listed file is passed to load once, and each file that is no longer listed to unload once, with its pointer. Otherwise a reload changes nothing and calls nothing. Over any sequence of reloads, a file is passed to unload only while it is loaded, the loaded files are those of the set, and my_fileset_destroy unloads them all.", "quantifier": "for all sequences of reloads, all contents of the set file at each, all answers of the file system", "why_tests_cant": "The sequences of contents are unbounded; a pointer released twice or never shows only after particular successions of listings.", "anchors": ["libmy/my_fileset.c: my_fileset_init, my_fileset_reload, my_fileset_destroy, my_fileset_get, fetch_entry, setfile_updated, cmp_fileset_entry"]}
{"id": "C77", "title": "Reading a number of bytes from a descriptor", "statement": "read_bytes returns true exactly if it has read as many bytes as requested, and then they are the next bytes of the descriptor, in the buffer from its beginning; it never takes more from the descriptor or writes behind them, whatever portions the system delivers and however often signals interrupt it. It returns false only at the end of the file or after an error, and returns at the latest after as many answers other than interruptions as bytes were requested. A call that returns has stored nothing outside the buffer.", "quantifier": "for all inputs, numbers of bytes, buffers, and all sequences of answers of the system (short reads, interruptions, errors, end of file)", "why_tests_cant": "Short reads and signals come at the system's choice; the sequences are unbounded and tests see few of them.", "anchors": ["libmy/read_bytes.h: read_bytes"]}
{"id": "C78", "title": "Rate limiter", "statement": "Each call of my_rate_sleep returns later than the one before it; it sleeps, if at all, until a time after that one returned and at most a period later, and a call that comes later than that does not sleep. Whenever the calls come, at most as many return within a second of the clock as the rate says. The first call always sleeps, at most a period. The period is computed anew at every freq-th call but the first of these, and only there.", "quantifier": "for all sequences of calls, all times of the calls and of waking up, all periods, rates adjusted or not", "why_tests_cant": "Clock readings are not under the control of a test, and the limit is on every second of every execution.", "anchors": ["libmy/my_rate.c: my_rate_init, my_rate_sleep, calc_next_tick", "libmy/my_time.h: my_timespec_sub"]}
{"id": "C79", "title": "Spool directory", "statement": "spooldir_next returns the path, below active, of the first file that the directory incoming lists, that is regular and whose name does not begin with a dot; when it returns, this very file is there and no longer in incoming, and every other file is where it was. It returns NULL exactly if no such file is listed, the move fails or a directory is in the way, and then takes nothing from incoming. Whatever calls, arrivals and removals follow one another, no file is given out twice. A file given out stays where it is until it is removed by who got it.", "quantifier": "for all directories, file names, listings, and sequences of calls, arrivals and removals", "why_tests_cant": "Which file is listed when depends on the file system and on other programs; sequences of events are unbounded.", "anchors": ["libmy/spooldir.c: spooldir_init, spooldir_next"]}
{"id": "C80", "title": "Reading a zone file", "statement": "For a file whose first record is an SOA, the calls of zonefile_read give the SOA and then the other records in the order of the file, and NULL after the last; an entry that cannot be read is reported as an error, and empty lines and directives are not told. zonefile_get_count is the number of records given out, at least one; zonefile_get_serial is the serial number of the SOA. Whenever the object is destroyed, each record read has been given to the caller or freed, exactly once, and no memory is lost. For any other file there is no object, and what was read is freed. A file whose name ends with .gz is read through the command zcat, any other itself.", "quantifier": "for all sequences of entries of the file and all numbers of calls", "why_tests_cant": "Files are unbounded, and a leak or a record freed twice shows only for some combinations of entries and calls.", "anchors": ["libmy/zonefile.c: zonefile_init_fname, read_soa, zonefile_read, zonefile_get_count, zonefile_get_serial, zonefile_destroy"]}
{"id": "C81", "title": "Hashing words", "statement": "my_hashword and my_hashword2 read only the words of the key. With zero as the second seed my_hashword2 stores in *pc what my_hashword returns. The hash of a key that is not empty is that of its groups of three words, each but the last added to the state and mixed in, the last added and finished. mix is reversible: every state is the result of exactly one; final maps different states to different ones.", "quantifier": "for all keys, lengths, seeds and states", "why_tests_cant": "There are 2^96 states and unboundedly many keys; that none collide in mix cannot be found out by trying.", "anchors": ["libmy/lookup3.c: mix, final, my_hashword, my_hashword2"]}
