{
 "claims": [
  {
   "property": "C01",
   "status": "proved",
   "theorems": [
    "Verif.Props.C01_decode64_value",
    "Verif.Props.C01_strict",
    "Verif.Props.C01_strict_counterexample",
    "Verif.Props.C01_varint32_roundtrip",
    "Verif.Props.C01_varint64_roundtrip"
   ],
   "note": "both widths, any following bytes; decoder also characterised on non-minimal encodings. The 32-bit reader is modelled as gcc compiles it; by the letter of the C standard its last shift is undefined for numbers from 2^31 on (C01_strict, C01_strict_counterexample)."
  },
  {
   "property": "C02",
   "status": "proved",
   "theorems": [
    "Verif.Props.C02_varint_length",
    "Verif.Props.C02_varint_prefix_free"
   ],
   "note": "prefix-freeness, injectivity, announced length, 32/64-bit writers agree"
  },
  {
   "property": "C03",
   "status": "proved",
   "theorems": [
    "Verif.Props.C03_pair_roundtrip",
    "Verif.Props.C03_triplet_injective_and_fits",
    "Verif.Props.C03_triplet_roundtrip"
   ],
   "note": "round trip and rejection of any non-empty suffix; injectivity"
  },
  {
   "property": "C04",
   "status": "proved",
   "theorems": [
    "Verif.Props.C04_merge_triplets",
    "Verif.Props.C04_merge_triplets_observed"
   ],
   "note": "through the dispatch of dnstable_merge_func"
  },
  {
   "property": "C05",
   "status": "proved",
   "theorems": [
    "Verif.Props.C05_merge_any_grouping",
    "Verif.Props.C05_merge_order_independent"
   ],
   "note": "any binary grouping and permutation of packed values"
  },
  {
   "property": "C06",
   "status": "proved",
   "theorems": [
    "Verif.Props.C06_merge_time_range",
    "Verif.Props.C06_merge_unknown",
    "Verif.Props.C06_merge_version"
   ],
   "note": "any grouping/order, legacy empty values, unknown kinds"
  },
  {
   "property": "C07",
   "status": "proved",
   "theorems": [
    "Verif.Props.C07_merge_empty_absorbs",
    "Verif.Props.C07_merge_is_union",
    "Verif.Props.C07_zero_bitmaps_counterexample"
   ],
   "note": "for sets with at least one type and not together all 65536 types (type 0 is reserved); all-zero bitmaps are shown as counterexample to the unrestricted form"
  },
  {
   "property": "C08",
   "status": "proved",
   "theorems": [
    "Verif.Props.C08_merge_canonical",
    "Verif.Props.C08_merge_comm_idem"
   ],
   "note": "any grouping over the same set of canonical contributions; commutativity and idempotence including aborts"
  },
  {
   "property": "C09",
   "status": "partial",
   "theorems": [
    "Verif.Props.C09_merge_abort_iff",
    "Verif.Props.C09_merge_aborts_counterexample",
    "Verif.Props.C09_merge_many_succeeds_partial",
    "Verif.Props.C09_merge_succeeds_partial"
   ],
   "note": "Merging well-formed type sets succeeds when the types fall in at most 30 windows of 256 types, for two sets and for any grouping of any number of contributions; exact abort condition (union bitmap of 1024 bytes or more) and a counterexample to the full statement."
  },
  {
   "property": "C10",
   "status": "partial",
   "theorems": [
    "Verif.Props.C10_damaged",
    "Verif.Props.C10_empty_value",
    "Verif.Props.C10_exact_partial",
    "Verif.Props.C10_false_positive_counterexample",
    "Verif.Props.C10_no_false_negative",
    "Verif.Props.C10_overread_counterexample"
   ],
   "note": "no false negatives proved in full; exactness and in-bounds reading proved except for types one byte past their block, where the code over-reads (two concrete counterexamples)"
  },
  {
   "property": "C11",
   "status": "partial",
   "theorems": [
    "Verif.Props.C11_full_set_counterexample",
    "Verif.Props.C11_long_block_counterexample",
    "Verif.Props.C11_rejects_malformed_partial",
    "Verif.Props.C11_unpack_exact"
   ],
   "note": "exact, sorted enumeration of well-formed sets other than the set of all 65536 types proved; that set is rejected (counterexample, exact characterisation); malformed input is rejected except that blocks of 33..255 bytes are accepted (counterexample)"
  },
  {
   "property": "C12",
   "status": "proved",
   "theorems": [
    "Verif.Props.C12_reverse_injective",
    "Verif.Props.C12_reverse_involution",
    "Verif.Props.C12_subdomain_iff_prefix"
   ],
   "note": "wdns_reverse_name is outside /repo; its contract is modelled on label lists."
  },
  {
   "property": "C13",
   "status": "proved",
   "theorems": [
    "Verif.Props.C13_rrset_roundtrip"
   ],
   "note": "Documented layout encoded by the specification; read back through the accessors, with the documented fix-ups."
  },
  {
   "property": "C14",
   "status": "proved",
   "theorems": [
    "Verif.Props.C14_rdata_roundtrip"
   ],
   "note": "Sliced and unsliced layouts."
  },
  {
   "property": "C15",
   "status": "proved",
   "theorems": [
    "Verif.Props.C15_fwd_index",
    "Verif.Props.C15_rev_index",
    "Verif.Props.C15_source_info",
    "Verif.Props.C15_time_range",
    "Verif.Props.C15_version"
   ],
   "note": "Name indices, time range, version, source info (text up to the first NUL)."
  },
  {
   "property": "C16",
   "status": "proved",
   "theorems": [
    "Verif.Props.C16_index_key_injective",
    "Verif.Props.C16_kinds_disjoint",
    "Verif.Props.C16_rdata_key_injective",
    "Verif.Props.C16_rrset_key_injective"
   ],
   "note": "Keys are injective per kind and kinds are disjoint."
  },
  {
   "property": "C17",
   "status": "partial",
   "theorems": [
    "Verif.Props.C17_decode_safe_partial",
    "Verif.Props.C17_diverge_counterexample",
    "Verif.Props.C17_overread_counterexample",
    "Verif.Props.C17_overwrite_counterexample",
    "Verif.Props.C17_unknown_type"
   ],
   "note": "False in general (divergence, over-read and over-write witnesses proved); safety proved under stated conditions on the bytes."
  },
  {
   "property": "C18",
   "status": "partial",
   "theorems": [
    "Verif.Props.C18_exact_rrset",
    "Verif.Props.C18_wildcard_look_alike_counterexample"
   ],
   "note": "Exact RRset queries are proved for every query name that is not read as a wildcard (C18_exact_rrset). The full statement is false for names whose last label merely ends in the bytes 01 2a or 01 2b, which the code takes for a right wildcard (C18_wildcard_look_alike_counterexample)."
  },
  {
   "property": "C19",
   "status": "proved",
   "theorems": [
    "Verif.Props.C19_left_wildcard"
   ],
   "note": "Left wildcard queries deliver exactly the RRsets at or below the domain (or exactly one label below for '+'), restricted by type, bailiwick and times."
  },
  {
   "property": "C20",
   "status": "partial",
   "theorems": [
    "Verif.Props.C20_overread_counterexample",
    "Verif.Props.C20_right_wildcard_any",
    "Verif.Props.C20_right_wildcard_partial"
   ],
   "note": "Untyped right-wildcard queries are proved in full (C20_right_wildcard_any). For queries with a type the proof needs that no index type set ends right before that type's byte; otherwise the code reads past the value (C20_overread_counterexample)."
  },
  {
   "property": "C21",
   "status": "partial",
   "theorems": [
    "Verif.Props.C21_exact_name_partial",
    "Verif.Props.C21_other_type_counterexample",
    "Verif.Props.C21_right_wildcard",
    "Verif.Props.C21_unsliced_counterexample"
   ],
   "note": "Right wildcards and exact names are proved for name-bearing types. False for other requested types (C21_other_type_counterexample) and, with a type, for unsliced MX/SRV data (C21_unsliced_counterexample)."
  },
  {
   "property": "C22",
   "status": "partial",
   "theorems": [
    "Verif.Props.C22_left_wildcard_listed_partial",
    "Verif.Props.C22_left_wildcard_partial",
    "Verif.Props.C22_unlisted_type_counterexample"
   ],
   "note": "Proved for tables whose reverse index lists the names of the types asked for, with the type-set restriction of C20 and the data restriction of C21. The documented index does not list NSEC, RP and NXT names (C22_unlisted_type_counterexample)."
  },
  {
   "property": "C23",
   "status": "partial",
   "theorems": [
    "Verif.Props.C23_address_partial",
    "Verif.Props.C23_dashes",
    "Verif.Props.C23_labels_counterexample",
    "Verif.Props.C23_length_counterexample",
    "Verif.Props.C23_overread_iff",
    "Verif.Props.C23_range_partial",
    "Verif.Props.C23_skip",
    "Verif.Props.C23_text_address_partial",
    "Verif.Props.C23_text_prefix4_partial",
    "Verif.Props.C23_text_prefix6_partial",
    "Verif.Props.C23_text_range_partial"
   ],
   "note": "Single addresses, ranges and prefixes (from the texts, via C24) deliver exactly the records in range, provided no record of another type in the span has a CutShort key; skipping ahead is proved sound at every other key of any bytes, and the over-read is shown to happen exactly at CutShort keys. The two counterexamples show stored tables of legal records for which the query reads behind a key."
  },
  {
   "property": "C24",
   "status": "partial",
   "theorems": [
    "Verif.Props.C24_ip4_partial",
    "Verif.Props.C24_ip4_zero_counterexample",
    "Verif.Props.C24_ip6",
    "Verif.Props.C24_shifts",
    "Verif.Props.C24_slashes",
    "Verif.Props.C24_too_long",
    "Verif.Props.C24_undefined_counterexample"
   ],
   "note": "For IPv6 the bounds of address/length are proved to be exactly the prefix block for every length on x86 shift semantics; for IPv4 for lengths 1 to 32. Counterexamples: IPv4 /0 selects a single address on x86, and shift lengths that are undefined in C."
  },
  {
   "property": "C25",
   "status": "proved",
   "theorems": [
    "Verif.Props.C25_raw",
    "Verif.Props.C25_raw_short"
   ],
   "note": "The given bytes are compared with the whole rest of the key (data, type, owner); C25_raw_short is the documented case of bytes that end within data and type."
  },
  {
   "property": "C26",
   "status": "proved",
   "theorems": [
    "Verif.Props.C26_bailiwick",
    "Verif.Props.C26_rdata_name",
    "Verif.Props.C26_rrtype"
   ],
   "note": "Each key filter accepts exactly the keys with the asked type, bailiwick, or rdata name, for all legal records."
  },
  {
   "property": "C27",
   "status": "partial",
   "theorems": [
    "Verif.Props.C27_rdata_address_partial",
    "Verif.Props.C27_rdata_left_partial",
    "Verif.Props.C27_rdata_partial",
    "Verif.Props.C27_rdata_range_partial",
    "Verif.Props.C27_rdata_raw",
    "Verif.Props.C27_rdata_right_partial",
    "Verif.Props.C27_rrset",
    "Verif.Props.C27_rrset_left",
    "Verif.Props.C27_rrset_right_any",
    "Verif.Props.C27_rrset_right_partial",
    "Verif.Props.C27_view",
    "Verif.Props.C27_zero_last_counterexample"
   ],
   "note": "Model of reader_time_filter and of the aggregated part of dnstable_query_iter_fileset (kept, fill and removed files; ljoin and removal stages). For every set of files whose time ranges cover the stored times of their records, every combination of the four bounds, every merge order and seek behaviour: the query over the file set delivers exactly the records, with the aggregated times and counts, that the same query over the aggregate of all files delivers (RRsets by name and left wildcard, raw data: no further hypotheses; rdata names, addresses: under the hypotheses of C21-C23; right-wildcard RRsets and left-wildcard rdata names via the index of the kept files, in its order). Hypothesis: index type sets can be merged (at most 30 windows of types in total, see C07/C48). Counterexample: a record with last-seen time 0 lies outside a range computed from first-seen minimum; such a file is removed although its record passes. The unaggregated file-set query is C50."
  },
  {
   "property": "C28",
   "status": "partial",
   "theorems": [
    "Verif.Props.C28_returned_partial",
    "Verif.Props.C28_zero_last_counterexample"
   ],
   "note": "Proved for every record query, table, file set and execution, except for rows stored with a zero last-seen time under an upper bound on the last-seen time, for which the property is false (counterexample)."
  },
  {
   "property": "C29",
   "status": "proved",
   "theorems": [
    "Verif.Props.C29_ljoin",
    "Verif.Props.C29_ljoin_observations",
    "Verif.Props.C29_remove"
   ],
   "note": "Left join and removal over sorted tables, for every sequence of next and forward seek calls."
  },
  {
   "property": "C30",
   "status": "proved",
   "theorems": [
    "Verif.Props.C30_resume"
   ],
   "note": "for every query that can be opened, any sorted sources, removal and fill sources, any clock and any active limits at each call: the answers (timeouts left out) equal the answers of the same query without limits"
  },
  {
   "property": "C31",
   "status": "proved",
   "theorems": [
    "Verif.Props.C31_cleared_counterexample",
    "Verif.Props.C31_deadline",
    "Verif.Props.C31_steps",
    "Verif.Props.C31_unlimited"
   ],
   "note": "deadline/timeout formula with normalised times, no source step is taken after the stop time is observed (step count bounded by readings before the stop time), unlimited queries never time out; counterexample: clearing the limits of an open query makes the filter's jump point stale"
  },
  {
   "property": "C32",
   "status": "partial",
   "theorems": [
    "Verif.Props.C32_offset",
    "Verif.Props.C32_reuse_counterexample",
    "Verif.Props.C32_undecodable_counterexample"
   ],
   "note": "C32_offset: with offset n, any query (also with timeouts, two-step wildcard lookups, removal and fill tables) returns the rows of the query without offset minus the first n, given that stored rows decode. False parts proved as such: the query object's offset is counted down by its iterators, so reusing the object does not give the same rows (C32_reuse_counterexample); rows that do not decode count towards the offset (C32_undecodable_counterexample)."
  },
  {
   "property": "C33",
   "status": "partial",
   "theorems": [
    "Verif.Props.C33_absent_counterexample",
    "Verif.Props.C33_assembled",
    "Verif.Props.C33_clean",
    "Verif.Props.C33_index_partial",
    "Verif.Props.C33_lost_counterexample",
    "Verif.Props.C33_observing",
    "Verif.Props.C33_offset",
    "Verif.Props.C33_query_offset",
    "Verif.Props.C33_query_partial",
    "Verif.Props.C33_refused",
    "Verif.Props.C33_reported",
    "Verif.Props.C33_stage_partial",
    "Verif.Props.C33_stages_distinct"
   ],
   "note": "For any stage of any pipeline (and so of any assembled query: C33_assembled, C33_stages_distinct), after any history of calls with any number of iterators: rows taken = rows handed on + rows counted + lost, where lost is at most the number of calls of the stage that ended without a row and is 0 for the offset, the removal and filters that only pass or drop. The property says lost = 0 always; C33_lost_counterexample shows a row lost by the address filter at 255.255.255.255. The offset law (min of offset and rows) holds as stated. C33_reported ties the counters to dnstable_iter_get_count; C33_absent_counterexample: the manual page promises success for valid stages, absent ones give failure."
  },
  {
   "property": "C34",
   "status": "partial",
   "theorems": [
    "Verif.Props.C34_counts_counterexample",
    "Verif.Props.C34_order_partial",
    "Verif.Props.C34_preorder"
   ],
   "note": "The comparison is a total preorder on the times (C34_preorder), and the order of times does not depend on the files (C34_order_partial). Counts are not compared: C34_counts_counterexample."
  },
  {
   "property": "C35",
   "status": "proved",
   "theorems": [
    "Verif.Props.C35_compare_is_lex",
    "Verif.Props.C35_compare_total_order"
   ],
   "note": "bytes_compare decides lexicographic order (specified recursively), is a total order, proper prefix first."
  },
  {
   "property": "C36",
   "status": "proved",
   "theorems": [
    "Verif.Props.C36_increment_is_successor"
   ],
   "note": "increment_key: smallest string of its length above every extension of the prefix; impossible iff all bytes 0xFF."
  },
  {
   "property": "C37",
   "status": "proved",
   "theorems": [
    "Verif.Props.C37_bytewise",
    "Verif.Props.C37_printable",
    "Verif.Props.C37_string"
   ],
   "note": "C37_string: reading the written string back as JSON gives the original bytes; C37_printable: only printable bytes and well-formed escapes appear. Whether bytes above 127 form valid UTF-8 depends on the input."
  },
  {
   "property": "C38",
   "status": "proved",
   "theorems": [
    "Verif.Props.C38_json",
    "Verif.Props.C38_uint64",
    "Verif.Props.C38_unique",
    "Verif.Props.C38_vnum"
   ],
   "note": "Numbers written by vnum_to_str / my_uint64_to_str are the unique shortest decimal numerals of every 64-bit value, within the buffers."
  },
  {
   "property": "C39",
   "status": "partial",
   "theorems": [
    "Verif.Props.C39_formatter_partial",
    "Verif.Props.C39_full_set_counterexample",
    "Verif.Props.C39_manual_counterexample",
    "Verif.Props.C39_members_partial",
    "Verif.Props.C39_plain_partial",
    "Verif.Props.C39_raw_overflow_counterexample",
    "Verif.Props.C39_source_counterexample",
    "Verif.Props.C39_type_truncated_counterexample",
    "Verif.Props.C39_wellformed"
   ],
   "note": "well-formed JSON object with exactly the member names of its entry type, each once, proved for every entry and formatter (C39_wellformed); member values proved for every legal record that is presentable: RFC 3339 dates up to year 9999, type sets other than the full one, source info without NUL. Text functions of libwdns are contracts. Counterexamples: 3-byte raw type buffer overflow, types above 65535, NUL/non-UTF-8 source info, full type set, manual's field name and single-string rule"
  },
  {
   "property": "C40",
   "status": "proved",
   "theorems": [
    "Verif.Props.C40_accept",
    "Verif.Props.C40_decode",
    "Verif.Props.C40_roundtrip"
   ],
   "note": "hex_decode accepts exactly the even-length hexadecimal strings; fmt_hex_str and hex_decode are mutually inverse."
  },
  {
   "property": "C41",
   "status": "proved",
   "theorems": [
    "Verif.Props.C41_faithful",
    "Verif.Props.C41_json",
    "Verif.Props.C41_limits",
    "Verif.Props.C41_order"
   ],
   "note": "gmtime_r is a parameter satisfying the calendar contract GmtimeOk. Covers all times up to the end of year 9999; C41_limits shows the behaviour beyond."
  },
  {
   "property": "C42",
   "status": "proved",
   "theorems": [
    "Verif.Props.C42_categories",
    "Verif.Props.C42_entry_types",
    "Verif.Props.C42_stages"
   ],
   "note": "Entry types, statistics stages and categories; strcasecmp in the C locale."
  },
  {
   "property": "C43",
   "status": "partial",
   "theorems": [
    "Verif.Props.C43_address_counterexample",
    "Verif.Props.C43_clear_counterexample",
    "Verif.Props.C43_clear_partial",
    "Verif.Props.C43_failure_partial",
    "Verif.Props.C43_frame",
    "Verif.Props.C43_history_partial",
    "Verif.Props.C43_last_partial",
    "Verif.Props.C43_name_counterexample",
    "Verif.Props.C43_observable",
    "Verif.Props.C43_order_counterexample",
    "Verif.Props.C43_order_partial",
    "Verif.Props.C43_raw_counterexample"
   ],
   "note": "Frame, order independence, last-set-wins, failure and clearing are proved for all setters except those the counterexamples name: a failed set of a name or bailiwick discards the old value, a failed raw or address set leaves a query that faults when run, clearing the version type has no effect, and the address and its type must be set in order."
  },
  {
   "property": "C44",
   "status": "partial",
   "theorems": [
    "Verif.Props.C44_filter",
    "Verif.Props.C44_returned_counterexample",
    "Verif.Props.C44_returned_partial"
   ],
   "note": "C44_filter proves the first half for every query and entry. The second half holds for every record query over arbitrary tables and executions, except that rows stored with a zero last-seen time can be returned by a query with an upper bound on the last-seen time and are then rejected (counterexample)."
  },
  {
   "property": "C45",
   "status": "partial",
   "theorems": [
    "Verif.Props.C45_iter_partial",
    "Verif.Props.C45_kind",
    "Verif.Props.C45_row_counterexample",
    "Verif.Props.C45_setfile_counterexample",
    "Verif.Props.C45_stored"
   ],
   "note": "For every sorted table and every kind (or all), any number of calls of the iterator returns exactly the decodable entries of the kind in table order and then failure for ever; undecodable rows may be anywhere; for tables of legal records these are the entries of all records. Partial: rows of the kind must be safe to decode (C17): counterexample row read past its end. Readers of set files have a NULL source (counterexample)."
  },
  {
   "property": "C46",
   "status": "partial",
   "theorems": [
    "Verif.Props.C46_loose",
    "Verif.Props.C46_strict_partial",
    "Verif.Props.C46_unset_last_counterexample"
   ],
   "note": "Holds for every combination of bounds and every record whose stored first-seen time is not after its stored last-seen time; a stored last-seen time of 0 breaks it (C46_unset_last_counterexample)."
  },
  {
   "property": "C47",
   "status": "partial",
   "theorems": [
    "Verif.Props.C47_accessors_partial",
    "Verif.Props.C47_rdata_index_counterexample"
   ],
   "note": "False for index = number of elements (abort); everything else proved."
  },
  {
   "property": "C48",
   "status": "partial",
   "theorems": [
    "Verif.Props.C48_observations",
    "Verif.Props.C48_order_counterexample",
    "Verif.Props.C48_order_partial",
    "Verif.Props.C48_view"
   ],
   "note": "For any number of sorted files, any order of reading equal keys: a delivered view is strictly sorted, has exactly the keys of the files, and each value is a merge of all values stored for its key (explicit minimum/maximum/sum for RRsets and rdata). For encoded values with index types in at most 30 windows the view is always delivered and the same for every permutation of files. Partial: without the window bound the order of files decides whether the process aborts (counterexample). The mtbl merger itself is a modelled contract (outside the repository)."
  },
  {
   "property": "C49",
   "status": "proved",
   "theorems": [
    "Verif.Props.C49_terminates"
   ],
   "note": "all calls end provided decoding of the stored names ends (its divergence is C17); proved with and without time limits"
  },
  {
   "property": "C50",
   "status": "partial",
   "theorems": [
    "Verif.Props.C50_aggregated",
    "Verif.Props.C50_malformed_counterexample",
    "Verif.Props.C50_rdata_address_partial",
    "Verif.Props.C50_rdata_left_partial",
    "Verif.Props.C50_rdata_partial",
    "Verif.Props.C50_rdata_range_partial",
    "Verif.Props.C50_rdata_raw",
    "Verif.Props.C50_rdata_right_partial",
    "Verif.Props.C50_rrset",
    "Verif.Props.C50_rrset_left",
    "Verif.Props.C50_rrset_right_any",
    "Verif.Props.C50_rrset_right_partial"
   ],
   "note": "C50_rrset, C50_rrset_left and C50_rdata_raw hold without restriction; the others carry the hypotheses of the single-file theorems (record types that bear names, documented indexes, no cut-off type set, no address at the edge of a skip); right-wildcard RRset and left-wildcard rdata queries come in the order of the index names. Malformed files with rows of the same key abort the program (C50_malformed_counterexample)."
  },
  {
   "property": "C51",
   "status": "partial",
   "theorems": [
    "Verif.Props.C51_lines_partial",
    "Verif.Props.C51_locale_counterexample",
    "Verif.Props.C51_plain_partial",
    "Verif.Props.C51_source_counterexample",
    "Verif.Props.C51_time_counterexample",
    "Verif.Props.C51_zone_comment_partial",
    "Verif.Props.C51_zone_partial",
    "Verif.Props.C51_zone_record"
   ],
   "note": "Every line for every legal record, any zone flag and date form; zone lines read back to name, class, type and data. Excluded (Printable): numbers whose grouped form exceeds the buffer in locales with multi-byte separators, source info with NUL or newline, times gmtime_r refuses; each has a counterexample."
  },
  {
   "property": "C52",
   "status": "partial",
   "theorems": [
    "Verif.Props.C52_asks_partial"
   ],
   "note": "For every setter, argument and query: success exactly for the listed arguments, with the listed meaning. Excepted: IPv4 prefixes of length 0 (C24_ip4_zero_counterexample), and in strict C the lengths with undefined shifts (C24_undefined_counterexample). Parsing functions of libc and libwdns are contracts (LibsOk)."
  },
  {
   "property": "C53",
   "status": "partial",
   "theorems": [
    "Verif.Props.C53_before1970_counterexample",
    "Verif.Props.C53_overflow_counterexample",
    "Verif.Props.C53_refused_partial",
    "Verif.Props.C53_saturation_counterexample",
    "Verif.Props.C53_short",
    "Verif.Props.C53_understood"
   ],
   "note": "For every text, clock and libc keeping the contract TimeLibsOk: every documented text is understood as documented (C53_understood; C53_short excludes overflow for texts up to 13 characters), and of texts that are not dates nothing else is accepted (C53_refused_partial, for numbers below 2^63). The claim is false for dates before 1970, which are accepted, and for very large numbers, which overflow or saturate (counterexamples). Which other texts strptime takes for dates is left to libc."
  },
  {
   "property": "C54",
   "status": "partial",
   "theorems": [
    "Verif.Props.C54_count",
    "Verif.Props.C54_ends",
    "Verif.Props.C54_json_partial",
    "Verif.Props.C54_prints",
    "Verif.Props.C54_prompt",
    "Verif.Props.C54_text_partial"
   ],
   "note": "C54_prints, C54_ends and C54_count hold for every query, database and clock with normalised, non-negative readings. Partial in what the lines show: C54_text_partial and C54_json_partial need records C51 and C39 cover (dates up to year 9999, not all 65536 types in a set, no NUL or newline in source information). Option parsing is C57, statistics output C60."
  },
  {
   "property": "C55",
   "status": "proved",
   "theorems": [
    "Verif.Props.C55_array",
    "Verif.Props.C55_array_step",
    "Verif.Props.C55_buffer",
    "Verif.Props.C55_buffer_step",
    "Verif.Props.C55_buffers",
    "Verif.Props.C55_cstr",
    "Verif.Props.C55_detach",
    "Verif.Props.C55_extend",
    "Verif.Props.C55_make",
    "Verif.Props.C55_value"
   ],
   "note": "One operation and any sequence, for arrays of any element type (C55_array_step, C55_array) and for byte buffers (C55_buffer_step, C55_buffer), with the capacity bound and the exact reason for an abort in Faithful; making and making anew with any hint (C55_make, C55_buffers), joining (C55_extend), reading (C55_value), handing out (C55_detach), strings (C55_cstr). malloc and realloc are contracts."
  },
  {
   "property": "C56",
   "status": "partial",
   "theorems": [
    "Verif.Props.C56_json_partial",
    "Verif.Props.C56_prints",
    "Verif.Props.C56_refuses",
    "Verif.Props.C56_text_partial",
    "Verif.Props.C56_unreadable"
   ],
   "note": "Which records are printed, in which order, and refusals: for all tables of legal records. The text and JSON forms: records that the forms can show (see C51 and C39, whose counterexamples apply). The theorems start from the settings; how the command line gives them is C63."
  },
  {
   "property": "C57",
   "status": "partial",
   "theorems": [
    "Verif.Props.C57_number_counterexample",
    "Verif.Props.C57_refuses_partial",
    "Verif.Props.C57_starts_partial",
    "Verif.Props.C57_synopsis_counterexample"
   ],
   "note": "C57_starts_partial: the program starts a query exactly for the command lines described by Spec.Commands, and that query; C57_refuses_partial: everything else exits with failure and nothing is undefined. Partial: time arguments of the kind C53 is about, numbers within an int, prefixes as in C52. C57_number_counterexample: larger numbers are wrapped; C57_synopsis_counterexample: -O is refused with version and time_range though the manual has it."
  },
  {
   "property": "C58",
   "status": "partial",
   "theorems": [
    "Verif.Props.C58_ip_partial",
    "Verif.Props.C58_name_left_partial",
    "Verif.Props.C58_name_partial",
    "Verif.Props.C58_raw_partial",
    "Verif.Props.C58_refused_partial",
    "Verif.Props.C58_rrset_partial",
    "Verif.Props.C58_rrset_right_partial"
   ],
   "note": "From command line to output. C58_rrset_partial: owners without wildcard or beginning with one; C58_rrset_right_partial: owners ending with a wildcard, through the index; C58_name_partial and C58_name_left_partial: names in record data; C58_raw_partial; C58_ip_partial: addresses, ranges, prefixes; C58_refused_partial: everything else. Partial: well-formed tables whose records can be written, not the type 255, wildcard queries through the index only where no type set of the index ends right before the type asked for (C20), times and numbers of the kind C57 is about; the conditions of C20, C22 and C36 on record data apply; version and time_range are in C59."
  },
  {
   "property": "C59",
   "status": "partial",
   "theorems": [
    "Verif.Props.C59_bounds_counterexample",
    "Verif.Props.C59_loose_time_range",
    "Verif.Props.C59_loose_version",
    "Verif.Props.C59_program_time_range_partial",
    "Verif.Props.C59_program_version_partial",
    "Verif.Props.C59_set_time_range",
    "Verif.Props.C59_set_version",
    "Verif.Props.C59_time_range",
    "Verif.Props.C59_version"
   ],
   "note": "Proved for tables, aggregated and unaggregated sets of them (C59_time_range, C59_version, C59_set_*, C59_loose_*). The program theorems are partial as in C58: tables whose records can be written, times and numbers of the kind C57 is about. C59_bounds_counterexample: with a bound on times these queries read past the end of values."
  },
  {
   "property": "C60",
   "status": "proved",
   "theorems": [
    "Verif.Props.C60_defined",
    "Verif.Props.C60_errors",
    "Verif.Props.C60_silent",
    "Verif.Props.C60_statistics"
   ],
   "note": "what dnstable_iter_get_count reads at a moment is a parameter (C33 says what it reports); merge counters of the mtbl library are not modelled"
  },
  {
   "property": "C61",
   "status": "partial",
   "theorems": [
    "Verif.Props.C61_kinds",
    "Verif.Props.C61_stale_counterexample",
    "Verif.Props.C61_told_partial",
    "Verif.Props.C61_unknown_counterexample",
    "Verif.Props.C61_valid"
   ],
   "note": "C61_told_partial: after any calls the error text is readable and is that of the latest failure that has a text (Complains lists these and their texts), or 'unknown error'. Partial: the failures of Silent (raw data, ranges not of two parts, version kinds, data for time-range queries, filter parameters) set no text, so an earlier text stays (C61_stale_counterexample, C61_unknown_counterexample); C61_kinds: every failure is of one of the two kinds. C61_valid: the string given out stays readable and the same until a call fails with a new text."
  },
  {
   "property": "C62",
   "status": "partial",
   "theorems": [
    "Verif.Props.C62_cleanup",
    "Verif.Props.C62_delivered",
    "Verif.Props.C62_entries",
    "Verif.Props.C62_iterator",
    "Verif.Props.C62_iterator_files",
    "Verif.Props.C62_iterator_unaggregated",
    "Verif.Props.C62_leak_counterexample",
    "Verif.Props.C62_released_partial",
    "Verif.Props.C62_safe"
   ],
   "note": "Safety, destruction and the life of entries are proved for all programs of calls. Complete release is proved for programs without a removal stage; with one (aggregated, strict time bound, set file) it is false, see the counterexample. The iterators this is about have the stages, files, keys and kind that the query asks for (C62_iterator and following). Memory inside mtbl is not modelled; for output functions see C65, for merging C66."
  },
  {
   "property": "C63",
   "status": "partial",
   "theorems": [
    "Verif.Props.C63_exit_partial",
    "Verif.Props.C63_files_partial",
    "Verif.Props.C63_indirect_counterexample",
    "Verif.Props.C63_json_partial",
    "Verif.Props.C63_letter_counterexample",
    "Verif.Props.C63_manual_counterexample",
    "Verif.Props.C63_novalues_partial",
    "Verif.Props.C63_off",
    "Verif.Props.C63_run_partial",
    "Verif.Props.C63_text_partial",
    "Verif.Props.C63_value_counterexample"
   ],
   "note": "Proved for every list of arguments and every environment that leaves the argument library's settings alone, when no argument has a byte the library uses itself (counterexamples: those read or write out of bounds, or follow a null pointer). Files of arguments: C63_files_partial, for files that can be read, with short lines and without --. A section option that is turned off aborts the program (counterexample); the synopsis of the manual is refused (counterexample)."
  },
  {
   "property": "C64",
   "status": "partial",
   "theorems": [
    "Verif.Props.C64_exists",
    "Verif.Props.C64_files",
    "Verif.Props.C64_files_counterexample",
    "Verif.Props.C64_files_unaggregated_partial",
    "Verif.Props.C64_success",
    "Verif.Props.C64_zero"
   ],
   "note": "C64_exists and C64_success hold for all stages, categories and queries; C64_zero says what a counter that does not exist reads as. C64_files: for aggregated queries over file sets every file is counted once, where it is used. For unaggregated queries the files used are counted once for each of the two file sets (C64_files_unaggregated_partial), so that one file is reported as two (C64_files_counterexample)."
  },
  {
   "property": "C65",
   "status": "partial",
   "theorems": [
    "Verif.Props.C65_cleanup",
    "Verif.Props.C65_decoded",
    "Verif.Props.C65_defaults",
    "Verif.Props.C65_entries",
    "Verif.Props.C65_format",
    "Verif.Props.C65_json",
    "Verif.Props.C65_released_partial",
    "Verif.Props.C65_safe",
    "Verif.Props.C65_settings",
    "Verif.Props.C65_strings",
    "Verif.Props.C65_text",
    "Verif.Props.C65_unknown_counterexample"
   ],
   "note": "C65_safe, C65_text, C65_json, C65_format, C65_strings, C65_cleanup hold for all programs over all of the modelled API. C65_released_partial excludes queries with a removal stage (C62_leak_counterexample); C65_unknown_counterexample: entries of unknown key types make the output functions use NULL. Allocation is taken to succeed, and libwdns to write names without freeing anything (PlainNames)."
  },
  {
   "property": "C66",
   "status": "partial",
   "theorems": [
    "Verif.Props.C66_bounds",
    "Verif.Props.C66_many_partial",
    "Verif.Props.C66_merge_partial",
    "Verif.Props.C66_merge_portable",
    "Verif.Props.C66_zero_counterexample"
   ],
   "note": "C66_bounds holds for all values and allocators. C66_merge_partial and C66_many_partial take malloc(0) to give a block (as in glibc); C66_merge_portable needs no such assumption for all keys and values but pairs of type sets without any type, for which C66_zero_counterexample shows the abort. The order of merging is mtbl's (Spec.mergeValuesMem)."
  },
  {
   "property": "C67",
   "status": "partial",
   "theorems": [
    "Verif.Props.C67_abort_counterexample",
    "Verif.Props.C67_changed_counterexample",
    "Verif.Props.C67_current_partial",
    "Verif.Props.C67_exact_name",
    "Verif.Props.C67_exact_rrset",
    "Verif.Props.C67_ignored_counterexample",
    "Verif.Props.C67_left_rrset",
    "Verif.Props.C67_raw",
    "Verif.Props.C67_right_name",
    "Verif.Props.C67_type_kept_counterexample",
    "Verif.Props.C67_unchanged"
   ],
   "note": "Proved for every query of RRsets, names, addresses and raw data and any interleaving of setters and calls. C67_exact_rrset, C67_left_rrset, C67_raw, C67_exact_name and C67_right_name say for queries of RRsets by owner, of raw data and of names in data over one table (offset 0) exactly what each call returns; they exclude taking away the last time limit of a query opened with one, and address queries and names in data with a wildcard in front are not among them. Partial: the property fails for time bounds of rows stored without last-seen time (as in C44); the counterexamples show criteria that are not applied, and an abort."
  },
  {
   "property": "C68",
   "status": "partial",
   "theorems": [
    "Verif.Props.C68_add_counterexample",
    "Verif.Props.C68_calls",
    "Verif.Props.C68_get_counterexample",
    "Verif.Props.C68_heapify_sorts",
    "Verif.Props.C68_safe",
    "Verif.Props.C68_sorts"
   ],
   "note": "All sequences of calls refine a bag with the least item first; the case left is heap_get on an empty heap, which aborts in the code (C68_get_counterexample)."
  },
  {
   "property": "C69",
   "status": "partial",
   "theorems": [
    "Verif.Props.C69_brace_counterexample",
    "Verif.Props.C69_decode_partial",
    "Verif.Props.C69_decode_value_partial",
    "Verif.Props.C69_encode",
    "Verif.Props.C69_encode_value_counterexample",
    "Verif.Props.C69_encode_value_partial",
    "Verif.Props.C69_length",
    "Verif.Props.C69_room_counterexample",
    "Verif.Props.C69_round_trip"
   ],
   "note": "Encoding of blocks is complete. Decoding needs a text without '{' and a destination with one byte more room than the bytes take: otherwise the code reads out of bounds (C69_brace_counterexample, C69_room_counterexample). base64_encode_value reads before its table for negative arguments (C69_encode_value_counterexample)."
  },
  {
   "property": "C70",
   "status": "partial",
   "theorems": [
    "Verif.Props.C70_decode",
    "Verif.Props.C70_empty_counterexample",
    "Verif.Props.C70_encode_partial",
    "Verif.Props.C70_read",
    "Verif.Props.C70_refused",
    "Verif.Props.C70_room",
    "Verif.Props.C70_round_trip_partial",
    "Verif.Props.C70_two",
    "Verif.Props.C70_two_counterexample"
   ],
   "note": "Decoding is complete. Encoding fails in the code for empty data and when two bytes are left after the groups of five (C70_empty_counterexample, C70_two_counterexample); C70_two says what is written then."
  },
  {
   "property": "C71",
   "status": "partial",
   "theorems": [
    "Verif.Props.C71_alone_partial",
    "Verif.Props.C71_counterexample",
    "Verif.Props.C71_init",
    "Verif.Props.C71_locked_partial",
    "Verif.Props.C71_order_partial",
    "Verif.Props.C71_progress_partial",
    "Verif.Props.C71_threads_partial"
   ],
   "note": "False for queues of more than 2^32 bytes (C71_counterexample: four items of 2 GB); the theorems named _partial assume num_entries * size_entry <= 2^32, which C71_init does not need."
  },
  {
   "property": "C72",
   "status": "partial",
   "theorems": [
    "Verif.Props.C72_counterexample",
    "Verif.Props.C72_partial"
   ],
   "note": "False for the empty second argument (C72_counterexample: the loop never ends); proved for all others."
  },
  {
   "property": "C73",
   "status": "partial",
   "theorems": [
    "Verif.Props.C73_counterexample",
    "Verif.Props.C73_printable",
    "Verif.Props.C73_read_partial"
   ],
   "note": "Reading back is false for strings with a backslash (C73_counterexample) and proved for all others; that the output is printable is proved for all."
  },
  {
   "property": "C74",
   "status": "partial",
   "theorems": [
    "Verif.Props.C74_bytes_partial",
    "Verif.Props.C74_counterexample",
    "Verif.Props.C74_uint16"
   ],
   "note": "C74_bytes_partial: for every destination with room for at least one character and data of less than 2^63 bytes (no object is larger). Partial: with a destination of size 0 a byte is written outside it (C74_counterexample)."
  },
  {
   "property": "C75",
   "status": "proved",
   "theorems": [
    "Verif.Props.C75_checksum",
    "Verif.Props.C75_detects",
    "Verif.Props.C75_slicing",
    "Verif.Props.C75_sse42"
   ],
   "note": "Both implementations on little endian machines; the instruction crc32 is taken to be that of Intel's manual. The big endian tables are not modelled."
  },
  {
   "property": "C76",
   "status": "partial",
   "theorems": [
    "Verif.Props.C76_counterexample",
    "Verif.Props.C76_missed_counterexample",
    "Verif.Props.C76_once_partial",
    "Verif.Props.C76_quiet",
    "Verif.Props.C76_reload_partial"
   ],
   "note": "False if a set file lists a file twice (C76_counterexample: the pointer is unloaded twice) and a set file that cannot be opened once is not read later (C76_missed_counterexample); the theorems named _partial assume that no set file lists a file twice. Both callbacks are given; a pointer is the number of the call that returned it."
  },
  {
   "property": "C77",
   "status": "proved",
   "theorems": [
    "Verif.Props.C77_reads",
    "Verif.Props.C77_returns",
    "Verif.Props.C77_within"
   ],
   "note": "The buffer has room for the bytes requested. A call of read that is not answered is one that does not return."
  },
  {
   "property": "C78",
   "status": "partial",
   "theorems": [
    "Verif.Props.C78_calls",
    "Verif.Props.C78_counterexample",
    "Verif.Props.C78_first",
    "Verif.Props.C78_pace_partial",
    "Verif.Props.C78_rate_partial",
    "Verif.Props.C78_signal_counterexample"
   ],
   "note": "False for rates that do not divide 10^9 (C78_counterexample: rate 3, four calls in a second) and for sleeps that a signal ends (C78_signal_counterexample); C78_rate_partial bounds the calls in a second by n if n periods make up a second at least. C78_calls and C78_first hold without these hypotheses. The period is given, not computed (floating point)."
  },
  {
   "property": "C79",
   "status": "partial",
   "theorems": [
    "Verif.Props.C79_lost_counterexample",
    "Verif.Props.C79_next",
    "Verif.Props.C79_once",
    "Verif.Props.C79_there"
   ],
   "note": "C79_next is the result and the effect of a call in every reachable state; C79_once and C79_there are about all sequences of events. That a file given out stays is false (C79_lost_counterexample); C79_next says that a call moves or removes no file but those of the name it picks."
  },
  {
   "property": "C80",
   "status": "partial",
   "theorems": [
    "Verif.Props.C80_all_partial",
    "Verif.Props.C80_counterexample",
    "Verif.Props.C80_leak_counterexample",
    "Verif.Props.C80_open_counterexample",
    "Verif.Props.C80_reads",
    "Verif.Props.C80_refuses",
    "Verif.Props.C80_serial_counterexample",
    "Verif.Props.C80_source_partial"
   ],
   "note": "C80_reads is exact for every file that begins with an SOA; C80_refuses for all others; C80_source_partial for how a file is opened. Not true of the code: after a further SOA calls go on (C80_counterexample; C80_all_partial for files without), the serial number after the first call (C80_serial_counterexample), an origin before the SOA is lost (C80_leak_counterexample), the object is lost if the file cannot be opened (C80_open_counterexample). What libldns delivers for each entry is given."
  },
  {
   "property": "C81",
   "status": "proved",
   "theorems": [
    "Verif.Props.C81_final",
    "Verif.Props.C81_mix",
    "Verif.Props.C81_same",
    "Verif.Props.C81_value",
    "Verif.Props.C81_within"
   ],
   "note": "Words are read from the key as given; the caller's claim about its length is the length of the key in C81_within and C81_value. The hashes of bytes in the same file are not modelled."
  }
 ]
}