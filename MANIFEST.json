{
 "claims": [
  {
   "property": "C01",
   "status": "proved",
   "theorems": [
    "Uip.C01_uint32_value",
    "Uip.C01_uint32_roundtrip",
    "Uip.C01_ipv4_roundtrip",
    "Uip.C01_not_ipv4_panics",
    "Uip.C01_ipv4_domain"
   ],
   "note": "all uint32 values and all byte slices"
  },
  {
   "property": "C02",
   "status": "proved",
   "theorems": [
    "Uip.C02_next_ip",
    "Uip.C02_wraps_iff"
   ],
   "note": "all byte slices"
  },
  {
   "property": "C03",
   "status": "proved",
   "theorems": [
    "Uip.C03_ip_less",
    "Uip.C03_strict_total_order"
   ],
   "note": "all addresses of 4 or 16 bytes"
  },
  {
   "property": "C04",
   "status": "proved",
   "theorems": [
    "Uip.C04_last_ip",
    "Uip.C04_last_ip_greatest",
    "Uip.C04_ip_net"
   ],
   "note": "all CIDR blocks; also IpNet"
  },
  {
   "property": "C05",
   "status": "proved",
   "theorems": [
    "Uip.C05_contains_below_top",
    "Uip.C05_contains_exact",
    "Uip.C05_contains_top",
    "Uip.C05_contains_negation",
    "Uip.C05_exact"
   ],
   "note": "all inputs (C05_exact); the naive claim start <= ip <= end is false at the top (C05_contains_negation)"
  },
  {
   "property": "C06",
   "status": "proved",
   "theorems": [
    "Uip.C06_join_exact",
    "Uip.C06_join_below_top",
    "Uip.C06_join_top",
    "Uip.C06_joinIPNet_is_join",
    "Uip.C06_joinIPNet_below_top",
    "Uip.C06_joinIPNet_negation",
    "Uip.C06_join",
    "Uip.C06_joinIPNet"
   ],
   "note": "all ranges, also those that end at the top (C06_join, C06_joinIPNet); there blocks inside the range are refused (C06_joinIPNet_negation)"
  },
  {
   "property": "C07",
   "status": "proved",
   "theorems": [
    "Uip.C07_commonRange_below_top",
    "Uip.C07_commonRange_top",
    "Uip.C07_commonRange_negation",
    "Uip.C07_exact"
   ],
   "note": "all ranges and addresses (C07_exact); without the two conditions at the top the claim is false (C07_commonRange_negation)"
  },
  {
   "property": "C08",
   "status": "proved",
   "theorems": [
    "Uip.C08_ipNets_tiles",
    "Uip.C08_ipNets_exact_cover",
    "Uip.C08_reversed"
   ],
   "note": "C08_ipNets_tiles, C08_ipNets_exact_cover (Start <= End), C08_reversed (Start > End)"
  },
  {
   "property": "C09",
   "status": "proved",
   "theorems": [
    "Uip.C09_ipNets_minimal",
    "Uip.C09_ipNets_largest"
   ],
   "note": "against every list of CIDR networks with the same union; C09_ipNets_largest: every CIDR network inside the range lies inside one of the pieces"
  },
  {
   "property": "C10",
   "status": "proved",
   "theorems": [
    "Uip.C10_ipNets_terminates",
    "Uip.C10_bound_attained"
   ],
   "note": "bound 254, attained"
  },
  {
   "property": "C11",
   "status": "proved",
   "theorems": [
    "Uip.Ipdb.C11_pack_query"
   ],
   "note": "all row lists (canonical networks, not ::/0), values without tab, records < 64 KiB, file < 4 GiB"
  },
  {
   "property": "C12",
   "status": "proved",
   "theorems": [
    "Uip.Ipdb.C12_pack_query_mask"
   ],
   "note": "as C11"
  },
  {
   "property": "C13",
   "status": "proved",
   "theorems": [
    "Uip.Ipdb.C13_uncovered",
    "Uip.Ipdb.C13_single_field_negation",
    "Uip.Ipdb.C13_exact"
   ],
   "note": "C13_exact; that there is always an error is false of the program (C13_single_field_negation: a failed lookup looks like one empty value)"
  },
  {
   "property": "C14",
   "status": "proved",
   "theorems": [
    "Uip.Ipdb.C14_overlapping_rows",
    "Uip.Ipdb.C14_kept_rows"
   ],
   "note": "all insertion sequences of canonical networks"
  },
  {
   "property": "C15",
   "status": "proved",
   "theorems": [
    "Uip.Ipdb.C15_cache_transparent"
   ],
   "note": "all accepted byte strings"
  },
  {
   "property": "C16",
   "status": "proved",
   "theorems": [
    "Uip.Ipdb.C16_build_cache",
    "Uip.Ipdb.C16_build_cache_total"
   ],
   "note": "all accepted byte strings (|node count| < 2^60), all warm-up lists"
  },
  {
   "property": "C17",
   "status": "proved",
   "theorems": [
    "Uip.Ipdb.C17_answer_for_network",
    "Uip.Ipdb.C17_single_field_negation",
    "Uip.Ipdb.C17_exact"
   ],
   "note": "C17_exact, for every file that opens; the exception occurs (C17_single_field_negation)"
  },
  {
   "property": "C18",
   "status": "proved",
   "theorems": [
    "Uip.Ipdb.C18_forms",
    "Uip.Ipdb.C18_queryU32"
   ],
   "note": "all queriers, all addresses"
  },
  {
   "property": "C19",
   "status": "proved",
   "theorems": [
    "Uip.Ipdb.C19_truncated",
    "Uip.Ipdb.C19_extended"
   ],
   "note": "all packed files below 4 GiB, all cut positions"
  },
  {
   "property": "C20",
   "status": "proved",
   "theorems": [
    "Uip.Ipdb.C20_version"
   ],
   "note": "all data sets"
  },
  {
   "property": "C21",
   "status": "proved",
   "theorems": [
    "Uip.Ipdb.C21_records_once"
   ],
   "note": "field lists without capitalised variants of continent"
  },
  {
   "property": "C22",
   "status": "proved",
   "theorems": [
    "Uip.Ipdb.C22_short_negation",
    "Uip.Ipdb.C22_negative_count_negation",
    "Uip.Ipdb.C22_packed",
    "Uip.Ipdb.C22_open",
    "Uip.Ipdb.Exact.C22_sane",
    "Uip.Ipdb.Exact.C22_short_file",
    "Uip.Ipdb.Exact.C22_crashes"
   ],
   "note": "C22_sane with C22_crashes (each condition is needed), C22_short_file, C22_packed. That no bytes crash the reader is false"
  },
  {
   "property": "C23",
   "status": "proved",
   "theorems": [
    "Uip.Ipdb.C23_lookup_error",
    "Uip.Ipdb.C23_query_error_negation",
    "Uip.Ipdb.C23_query_never"
   ],
   "note": "C23_lookup_error, C23_query_never; that Query passes the errors on is false (C23_query_error_negation)"
  },
  {
   "property": "C24",
   "status": "proved",
   "theorems": [
    "Uip.Awdb.C24_awdb",
    "Uip.Dump.C24_dump_tiles",
    "Uip.Dump.C24_dump_partition",
    "Uip.Dump.C24_ipdb"
   ],
   "note": "all lookups returning their own network in the asked form; instantiated for ipdb and for awdb files that are not IPv6"
  },
  {
   "property": "C25",
   "status": "proved",
   "theorems": [
    "Uip.Awdb.C25_awdb",
    "Uip.Dump.C25_dump_values",
    "Uip.Dump.C25_row_values",
    "Uip.Dump.C25_ipdb",
    "Uip.Dump.C25_names",
    "Uip.Dump.C25_fields"
   ],
   "note": "all lookups that are coherent on their networks; instantiated for ipdb and for awdb files that are not IPv6"
  },
  {
   "property": "C26",
   "status": "proved",
   "theorems": [
    "Uip.Awdb.C26_awdb",
    "Uip.Dump.C26_dump_terminates",
    "Uip.Dump.C26_may_loop_forever",
    "Uip.Dump.C26_ipdb"
   ],
   "note": "with an explicit bound on the number of rows; a looping lookup is exhibited when the hypothesis fails"
  },
  {
   "property": "C27",
   "status": "proved",
   "theorems": [
    "Uip.Dump.C27_convert",
    "Uip.Dump.C27_pack_dump_pack"
   ],
   "note": "single family tables that tile the space, plain field lists"
  },
  {
   "property": "C28",
   "status": "proved",
   "theorems": [
    "Uip.Dump.C28_only_ipv4_dumped",
    "Uip.Dump.C28_negation"
   ],
   "note": "C28_only_ipv4_dumped for every file; C28_negation: a packed table of both families whose IPv6 record Query finds and the dump leaves out. The expected property (both families) is false"
  },
  {
   "property": "C29",
   "status": "proved",
   "theorems": [
    "Uip.Export.C29_export_rule",
    "Uip.Export.C29_unmatched_group_changes_nothing",
    "Uip.Export.C29_matched_group",
    "Uip.Export.C29_empty_name_leaks",
    "Uip.Export.C29_every_rule",
    "Uip.Export.C29_one_reading"
   ],
   "note": "C29_every_rule and C29_one_reading (every text), C29_export_rule (rules written from groups, as a function), C29_unmatched_group_changes_nothing, C29_matched_group. Records have no field with an empty name (C29_empty_name_leaks)."
  },
  {
   "property": "C30",
   "status": "proved",
   "theorems": [
    "Uip.Export.C30_export_never_invents",
    "Uip.Export.C30_rule_fields"
   ],
   "note": "all rules, all records"
  },
  {
   "property": "C31",
   "status": "proved",
   "theorems": [
    "Uip.Export.C31_default_rule"
   ],
   "note": "the literal default rule of the README, all records"
  },
  {
   "property": "C32",
   "status": "proved",
   "theorems": [
    "Uip.Operate.C32_merge",
    "Uip.Operate.C32_disjoint"
   ],
   "note": "all non-empty row lists of canonical networks, both scan orders, sharing allowed; disjointness preserved"
  },
  {
   "property": "C33",
   "status": "proved",
   "theorems": [
    "Uip.Operate.C33_idempotent"
   ],
   "note": "every successful merge of canonical networks"
  },
  {
   "property": "C34",
   "status": "proved",
   "theorems": [
    "Uip.Operate.C34_merge_iff",
    "Uip.Memip.C34_memip_iff",
    "Uip.Memip.C34_memip_negation",
    "Uip.Operate.C34_negation",
    "Uip.Operate.C34_nonempty"
   ],
   "note": "C34_merge_iff, C34_memip_iff (a table marked IPv4-only must hold IPv4 networks). The expected property, that the empty table is accepted, is false (C34_negation, C34_memip_negation)"
  },
  {
   "property": "C35",
   "status": "proved",
   "theorems": [
    "Uip.Operate.C35_replace_shortage",
    "Uip.Operate.C35_default_tables",
    "Uip.Operate.C35_idempotent",
    "Uip.Operate.C35_others_kept",
    "Uip.Operate.C35_which_fields"
   ],
   "note": "all tables without chains (the built-in ones are), all data, any sharing"
  },
  {
   "property": "C36",
   "status": "proved",
   "theorems": [
    "Uip.Operate.C36_trim_succeeds",
    "Uip.Operate.C36_trim",
    "Uip.Operate.C36_columns"
   ],
   "note": "all data with distinct field names, any sharing, any map iteration order; a field in column 0 counts as absent, as in the code"
  },
  {
   "property": "C37",
   "status": "proved",
   "theorems": [
    "Uip.Operate.C37_deterministic",
    "Uip.Operate.C37_negation",
    "Uip.Operate.C37_iff"
   ],
   "note": "C37_iff; C37_negation is a table on which runs differ"
  },
  {
   "property": "C38",
   "status": "proved",
   "theorems": [
    "Uip.Operate.C38_attach_district",
    "Uip.Operate.C38_normalised_provinces",
    "Uip.Operate.C38_columns"
   ],
   "note": "all aligned data, any sharing"
  },
  {
   "property": "C39",
   "status": "proved",
   "theorems": [
    "Uip.Operate.C39_attach_district_iff",
    "Uip.Operate.C39_attach_line_cidr_iff",
    "Uip.Operate.C39_attach_line_asn_iff",
    "Uip.Operate.C39_replace_shortage",
    "Uip.Operate.C39_trim",
    "Uip.Operate.C39_merge",
    "Uip.Operate.C39_replace_line",
    "Uip.Operate.C39_attach_district",
    "Uip.Operate.C39_attach_line_cidr",
    "Uip.Operate.C39_attach_line_asn",
    "Uip.Operate.C39_negation_district",
    "Uip.Operate.C39_negation_line_cidr",
    "Uip.Operate.C39_negation_line_asn"
   ],
   "note": "C39_attach_district_iff, C39_attach_line_cidr_iff, C39_attach_line_asn_iff and the unconditional ones; that all keep the alignment is false (three negations)"
  },
  {
   "property": "C40",
   "status": "proved",
   "theorems": [
    "Uip.Operate.C40_exact",
    "Uip.Operate.C40_attach_line_same",
    "Uip.Operate.C40_attach_line_unshared",
    "Uip.Operate.C40_attach_line_new",
    "Uip.Operate.C40_negation_existing",
    "Uip.Operate.C40_negation_spare",
    "Uip.Operate.C40_columns"
   ],
   "note": "C40_exact for every sharing pattern; in particular the own line when nothing is shared (C40_attach_line_unshared), when sharing rows have the same line or when a line field is appended without spare capacity. That every row gets its own line is false (two negations)"
  },
  {
   "property": "C41",
   "status": "proved",
   "theorems": [
    "Uip.Operate.C41_exact",
    "Uip.Operate.C41_same_line",
    "Uip.Operate.C41_negation",
    "Uip.Operate.C41_columns"
   ],
   "note": "C41_exact for every sharing pattern; C41_same_line when sharing rows have the same line; that every row gets its own is false (C41_negation)"
  },
  {
   "property": "C42",
   "status": "proved",
   "theorems": [
    "Uip.Operate.C42_line",
    "Uip.Operate.C42_three"
   ],
   "note": "all line databases and networks"
  },
  {
   "property": "C43",
   "status": "proved",
   "theorems": [
    "Uip.Convert.C43_outputs",
    "Uip.Convert.C43_clean_values",
    "Uip.Convert.C43_after_scan",
    "Uip.Convert.C43_no_scan",
    "Uip.Convert.C43_same_kind",
    "Uip.Convert.C43_scan_changes_later",
    "Uip.Convert.C43_ipdb_changes_scan"
   ],
   "note": "C43_after_scan is the exact result, C43_outputs the condition for independence; C43_scan_changes_later and C43_ipdb_changes_scan show that both conditions are needed"
  },
  {
   "property": "C44",
   "status": "proved",
   "theorems": [
    "Uip.Plain.C44_scan_roundtrip",
    "Uip.Plain.C44_scan_roundtrip_all",
    "Uip.Plain.C44_scan_rule",
    "Uip.Plain.C44_rows_after_family_end_lost"
   ],
   "note": "all row lists whose values are comma and line-break free and in which only the last row may end its family; the exact rule for other lists is C44_scan_rule, and the loss of rows after an all-ones row is proved"
  },
  {
   "property": "C45",
   "status": "proved",
   "theorems": [
    "Uip.Plain.C45_exact",
    "Uip.Plain.C45_packed",
    "Uip.Plain.C45_no_rule_no_values",
    "Uip.Plain.C45_negation"
   ],
   "note": "C45_exact for every text, C45_packed, C45_no_rule_no_values; that the values are kept is false (C45_negation)"
  },
  {
   "property": "C46",
   "status": "proved",
   "theorems": [
    "Uip.Plain.C46_cut_at_line_undetected",
    "Uip.Plain.C46_cut_inside_row",
    "Uip.Plain.C46_header_exact",
    "Uip.Plain.C46_rows_exact",
    "Uip.Plain.C46_exact"
   ],
   "note": "exact for every cut (C46_exact, with encoding/json modelled); that every cut is detected is false (C46_cut_at_line_undetected)"
  },
  {
   "property": "C47",
   "status": "proved",
   "theorems": [
    "Uip.Memip.C47_v4",
    "Uip.Memip.C47_v6",
    "Uip.Memip.C47_runs_keep_views",
    "Uip.Memip.C47_city_lost"
   ],
   "note": "all non-empty IPv4 row lists and all IPv6 row lists in which only the last row reaches the top; exact runs, either scan order; loss of the city proved"
  },
  {
   "property": "C48",
   "status": "proved",
   "theorems": [
    "Uip.Memip.C48_view",
    "Uip.Memip.C48_short_record_panics"
   ],
   "note": "all records with one value per field; short records panic (proved)"
  },
  {
   "property": "C49",
   "status": "proved",
   "theorems": [
    "Uip.Memip.C49_wrong_parts",
    "Uip.Memip.C49_bad_bounds_panic",
    "Uip.Memip.C49_negation",
    "Uip.Memip.C49_empty_panics",
    "Uip.Memip.C49_dual_unreadable",
    "Uip.Memip.C49_error_iff",
    "Uip.Memip.C49_crash_iff",
    "Uip.Memip.C49_rows",
    "Uip.Memip.C49_reversed_accepted"
   ],
   "note": "exact outcome for every text: errors (C49_error_iff), crashes (C49_crash_iff), results (C49_rows); the naive claim that malformed lines are always reported is false (C49_negation, C49_reversed_accepted)"
  },
  {
   "property": "C50",
   "status": "proved",
   "theorems": [
    "Uip.Awdb.C50_records"
   ],
   "note": "all three record sizes, all tables, all positions and values that fit"
  },
  {
   "property": "C51",
   "status": "proved",
   "theorems": [
    "Uip.Awdb.C51_decode",
    "Uip.Awdb.C51_encode_decode",
    "Uip.Awdb.C51_metadata"
   ],
   "note": "all documents of all types, keys and parts in place or behind pointers, up to the level limit; untyped target and the metadata struct"
  },
  {
   "property": "C52",
   "status": "proved",
   "theorems": [
    "Uip.Awdb.C52_no_panic",
    "Uip.Awdb.C52_plain_pointers",
    "Uip.Awdb.C52_backward_pointers",
    "Uip.Awdb.C52_pointer_to_itself_panics"
   ],
   "note": "C52_no_panic; chains: C52_pointer_to_itself_panics; no such chain exists if pointers go backward or to no pointer (C52_backward_pointers, C52_plain_pointers)"
  },
  {
   "property": "C53",
   "status": "proved",
   "theorems": [
    "Uip.Awdb.C53_terminates",
    "Uip.Awdb.C53_skip_terminates",
    "Uip.Awdb.C53_endless_chain_never_returns"
   ],
   "note": "C53_terminates, C53_skip_terminates, C53_endless_chain_never_returns. Running time is not modelled"
  },
  {
   "property": "C54",
   "status": "proved",
   "theorems": [
    "Uip.Awdb.C54_whole_network"
   ],
   "note": "every file that opens, every address"
  },
  {
   "property": "C55",
   "status": "proved",
   "theorems": [
    "Uip.Awdb.C55_ends",
    "Uip.Awdb.C55_networks"
   ],
   "note": "every file that opens and whose iteration ends without error; IPv4 addresses of an IPv6 database are at ::a.b.c.d; the iteration always ends"
  },
  {
   "property": "C56",
   "status": "proved",
   "theorems": [
    "Uip.Awdb.C56_missing_record_panics",
    "Uip.Awdb.C56_files_panic",
    "Uip.Awdb.C56_open_panics",
    "Uip.Awdb.C56_error",
    "Uip.Awdb.C56_exact"
   ],
   "note": "exact (C56_exact); the naive claim that an address without a record is an error is false: Query, dump and (for 8.8.8.8) opening crash, for every such file"
  },
  {
   "property": "C57",
   "status": "proved",
   "theorems": [
    "Uip.Awdb.C57_dump_query",
    "Uip.Awdb.C57_names",
    "Uip.Awdb.C57_asn_differs",
    "Uip.Awdb.C57_asn_exact"
   ],
   "note": "C57_dump_query, C57_names, C57_asn_exact; that they agree on asn is false (C57_asn_differs)"
  },
  {
   "property": "C58",
   "status": "proved",
   "theorems": [
    "Uip.Awdb.C58_open",
    "Uip.Awdb.C58_lookup",
    "Uip.Awdb.C58_short_file_panics",
    "Uip.Awdb.C58_wrapped_size_panics"
   ],
   "note": "C58_open, C58_lookup, C58_short_file_panics, C58_wrapped_size_panics; that no bytes crash it is false"
  },
  {
   "property": "C59",
   "status": "proved",
   "theorems": [
    "Uip.Program.C59_last_registration",
    "Uip.Program.C59_unsupported",
    "Uip.Program.C59_used",
    "Uip.Program.C59_extension",
    "Uip.Program.C59_no_extension",
    "Uip.Program.C59_builtin",
    "Uip.Program.C59_packWriter"
   ],
   "note": "all registration histories; the built-in registrations of the two programs"
  },
  {
   "property": "C60",
   "status": "proved",
   "theorems": [
    "Uip.Ipdb.C60_java_agrees",
    "Uip.Ipdb.C60_java_line_is_asn",
    "Uip.Ipdb.C60_java_exact"
   ],
   "note": "C60_java_exact, C60_java_agrees; the switch in the Java code falls through from asn into line, so that plain agreement is false (C60_java_line_is_asn)"
  },
  {
   "property": "C61",
   "status": "proved",
   "theorems": [
    "Uip.Ipdb.C61_rust_agrees",
    "Uip.Ipdb.C61_rust_loses_continent",
    "Uip.Ipdb.C61_rust_exact"
   ],
   "note": "C61_rust_exact, C61_rust_agrees; plain agreement is false (C61_rust_loses_continent)"
  },
  {
   "property": "C62",
   "status": "proved",
   "theorems": [
    "Uip.C62_address",
    "Uip.C62_address_num",
    "Uip.C62_network_same",
    "Uip.C62_network"
   ],
   "note": "all IPv4 addresses, all 16-byte addresses, all canonical networks"
  },
  {
   "property": "C63",
   "status": "proved",
   "theorems": [
    "Uip.Awdb.C63_lookup",
    "Uip.Awdb.C63_query"
   ],
   "note": "every file laid out as the format prescribes, every address; two concrete files"
  },
  {
   "property": "C64",
   "status": "proved",
   "theorems": [
    "Uip.Program.C64_convert"
   ],
   "note": "all tables the operations can process (Table), all orders; one output; JSON metadata assumed to survive (proved for the modelled encoding/json in C110); output below 4 GiB; complete concrete conversion in ConverterExample"
  },
  {
   "property": "C65",
   "status": "proved",
   "theorems": [
    "Uip.Program.C65_convert_line"
   ],
   "note": "tables with a country and without a line field, dumped with a rule; AttachLine mode"
  },
  {
   "property": "C66",
   "status": "proved",
   "theorems": [
    "Uip.Program.C66_input_failure",
    "Uip.Program.C66_only_outputs",
    "Uip.Program.C66_negation",
    "Uip.Program.C66_exact"
   ],
   "note": "C66_exact for every input, rule, line file and list of outputs (with a run that leaves a partly written .memip beside it); C66_input_failure, C66_only_outputs; that no existing file changes is false (C66_negation). Full disks and kills during a run: C107."
  },
  {
   "property": "C67",
   "status": "proved",
   "theorems": [
    "Uip.Program.C67_serve",
    "Uip.Program.C67_serve_packed"
   ],
   "note": "all packed databases and all request texts"
  },
  {
   "property": "C68",
   "status": "proved",
   "theorems": [
    "Uip.Ipdb.C68_java_answer",
    "Uip.Ipdb.C68_java_rejects",
    "Uip.Ipdb.C68_java_cache_transparent"
   ],
   "note": "Gson assumed to read back what the Go JSON encoder wrote, UTF-8 texts kept (discharged in C113, any file in C114 and C115); files below 2 GiB"
  },
  {
   "property": "C69",
   "status": "proved",
   "theorems": [
    "Uip.Ipdb.C69_rust_answer",
    "Uip.Ipdb.C69_rust_rejects",
    "Uip.Ipdb.C69_rust_u32"
   ],
   "note": "serde_json assumed to read back what the Go JSON encoder wrote, UTF-8 texts kept (discharged in C113, any file in C114 and C115); i32 arithmetic wrapping (never reached below 2 GiB)"
  },
  {
   "property": "C70",
   "status": "proved",
   "theorems": [
    "Uip.Ipdb.C70_java_uncovered",
    "Uip.Ipdb.C70_rust_uncovered"
   ],
   "note": "files below 512 KiB"
  },
  {
   "property": "C71",
   "status": "proved",
   "theorems": [
    "Uip.Ipdb.C71_versions"
   ],
   "note": ""
  },
  {
   "property": "C72",
   "status": "proved",
   "theorems": [
    "Uip.Ipdb.C72_java_text",
    "Uip.Ipdb.C72_java_text_colon",
    "Uip.Ipdb.C72_java_text_exact"
   ],
   "note": "C72_java_text_exact; the address parsers (sun.net.util.IPAddressUtil) are parameters. That ::1 is understood is false (C72_java_text_colon)"
  },
  {
   "property": "C73",
   "status": "proved",
   "theorems": [
    "Uip.C73_halves",
    "Uip.C73_unique",
    "Uip.C73_upper"
   ],
   "note": ""
  },
  {
   "property": "C74",
   "status": "proved",
   "theorems": [
    "Uip.C74_mask_less",
    "Uip.C74_strict_weak_order",
    "Uip.C74_subnet"
   ],
   "note": ""
  },
  {
   "property": "C75",
   "status": "proved",
   "theorems": [
    "Uip.C75_first_ip",
    "Uip.C75_not_ipv4"
   ],
   "note": "for a 16-byte address asked as IPv4 only the last four bytes are looked at, as in net.IP.To4"
  },
  {
   "property": "C76",
   "status": "proved",
   "theorems": [
    "Uip.C76_text",
    "Uip.C76_other"
   ],
   "note": ""
  },
  {
   "property": "C77",
   "status": "proved",
   "theorems": [
    "Uip.C77_prefix",
    "Uip.C77_mixed",
    "Uip.C77_suffix",
    "Uip.C77_suffix_le"
   ],
   "note": ""
  },
  {
   "property": "C78",
   "status": "proved",
   "theorems": [
    "Uip.C78_less",
    "Uip.C78_swap",
    "Uip.C78_sorted"
   ],
   "note": "C78_less, C78_swap, C78_sorted. sort.Sort itself is not modelled; nothing is assumed about how it chooses its exchanges."
  },
  {
   "property": "C79",
   "status": "proved",
   "theorems": [
    "Uip.Program.C79_check_v4",
    "Uip.Program.C79_check_v6",
    "Uip.Program.C79_packed"
   ],
   "note": ""
  },
  {
   "property": "C80",
   "status": "proved",
   "theorems": [
    "Uip.Program.C80_families"
   ],
   "note": ""
  },
  {
   "property": "C81",
   "status": "proved",
   "theorems": [
    "Uip.Ipdb.C81_columns"
   ],
   "note": "what FindMap returns for every column"
  },
  {
   "property": "C82",
   "status": "proved",
   "theorems": [
    "Uip.Awdb.C82_within",
    "Uip.Awdb.C82_ends",
    "Uip.Awdb.C82_ipv4_in_ipv6",
    "Uip.Awdb.C82_not_ipv4"
   ],
   "note": "C82_within, C82_ends; an IPv4 network of an IPv6 database is the mapped IPv6 network (C82_ipv4_in_ipv6), so that the networks IPv4 lookups find are not enumerated (C82_not_ipv4)"
  },
  {
   "property": "C83",
   "status": "proved",
   "theorems": [
    "Uip.Awdb.C83_lookup",
    "Uip.Awdb.C83_offset",
    "Uip.Awdb.C83_not_found",
    "Uip.Awdb.C83_cache"
   ],
   "note": "file shorter than 2^64 bytes"
  },
  {
   "property": "C84",
   "status": "proved",
   "theorems": [
    "Uip.Awdb.C84_version"
   ],
   "note": "int64 of the build time taken as exact"
  },
  {
   "property": "C85",
   "status": "proved",
   "theorems": [
    "Uip.Ipdb.C85_size",
    "Uip.Ipdb.C85_bound"
   ],
   "note": "fields spelled continent in another case excluded (there the stored record is converted)"
  },
  {
   "property": "C86",
   "status": "proved",
   "theorems": [
    "Uip.Ipdb.C86_long_exact",
    "Uip.Ipdb.C86_short",
    "Uip.Ipdb.C86_long_negation"
   ],
   "note": "C86_long_exact, C86_short; that values survive or packing fails is false (C86_long_negation)"
  },
  {
   "property": "C87",
   "status": "proved",
   "theorems": [
    "Uip.Ipdb.C87_exact",
    "Uip.Ipdb.C87_untouched",
    "Uip.Ipdb.C87_read_only",
    "Uip.Ipdb.C87_negation",
    "Uip.Ipdb.C87_negation_example"
   ],
   "note": "C87_exact for every history; C87_untouched, C87_read_only; that assignments never show is false (C87_negation, with a packed witness)"
  },
  {
   "property": "C88",
   "status": "proved",
   "theorems": [
    "Uip.LineAsn.C88_no_asn",
    "Uip.LineAsn.C88_existing_line",
    "Uip.LineAsn.C88_new_line",
    "Uip.LineAsn.C88_first_column",
    "Uip.LineAsn.C88_negation_new",
    "Uip.LineAsn.C88_negation_existing"
   ],
   "note": "C88_no_asn, C88_existing_line, C88_new_line for all data sets and sharing patterns; C88_first_column is the case in which every row gets the line of its ASN; that it always does is false (two negations)"
  },
  {
   "property": "C89",
   "status": "proved",
   "theorems": [
    "Uip.Program.C89_written",
    "Uip.Program.C89_after_scan",
    "Uip.Program.C89_stops",
    "Uip.Program.C89_convert",
    "Uip.Program.C89_memip",
    "Uip.Program.C89_all_kinds",
    "Uip.Program.C89_alone",
    "Uip.Program.C89_fails",
    "Uip.Program.C89_negation",
    "Uip.Program.C89_text"
   ],
   "note": "C89_alone, C89_fails for every input, with and without a line file; what the outputs hold: C89_convert, C89_all_kinds, C89_text, C89_memip (no line file; C90 with one). C89_negation: with a .scan output before an .ipdb output and a comma the claim is false. C89_after_scan: what the outputs after a .scan output hold."
  },
  {
   "property": "C90",
   "status": "proved",
   "theorems": [
    "Uip.Program.C90_replace",
    "Uip.Program.C90_attach",
    "Uip.Program.C90_negation"
   ],
   "note": "C90_replace, C90_attach: whole conversions. That it is always the own network is false of the program (C90_negation): rows of one record share a value slice, the last one wins. C65 has the exact line for tables without a line field."
  },
  {
   "property": "C91",
   "status": "proved",
   "theorems": [
    "Uip.Operate.C91_minimal",
    "Uip.Operate.C91_minimal_table",
    "Uip.Operate.C91_canonical",
    "Uip.Operate.C91_inside",
    "Uip.Operate.C91_ascending",
    "Uip.Operate.C91_ipdb",
    "Uip.Operate.C91_awdb",
    "Uip.Operate.C91_negation"
   ],
   "note": "Minimal against every list of networks with the right records and against every disjoint table, canonical; the instances for ipdb and IPv4 awdb dumps; without ascending rows it is false (C91_negation). C91_inside: every network of the table lies inside one merged network with its record."
  },
  {
   "property": "C92",
   "status": "proved",
   "theorems": [
    "Uip.Awdb.C92_decode",
    "Uip.Awdb.C92_lookup",
    "Uip.Awdb.C92_typed",
    "Uip.Awdb.C92_offset",
    "Uip.Awdb.C92_by_offset",
    "Uip.Awdb.C92_decode_file",
    "Uip.Awdb.C92_new",
    "Uip.Awdb.C92_lookup_new",
    "Uip.Awdb.C92_wraps",
    "Uip.Awdb.C92_map_of_structs"
   ],
   "note": "C92_decode, C92_lookup and C92_typed for any type without uintptr and any old contents, against fill of Spec/AwdbFill; C92_offset for uintptr; C92_by_offset (LookupOffset then Decode is Lookup) and C92_decode_file for the methods of the reader; C92_new, C92_lookup_new for new variables. The peculiarities occur: C92_map_of_structs, C92_wraps. What a variable holds after an error is not claimed."
  },
  {
   "property": "C93",
   "status": "proved",
   "theorems": [
    "Uip.Program.C93_go",
    "Uip.Java.C93_java",
    "Uip.Rust.C93_rust",
    "Uip.Program.C93_three_readers"
   ],
   "note": "All three readers; C93_three_readers composes them for packed tables."
  },
  {
   "property": "C94",
   "status": "proved",
   "theorems": [
    "Uip.Program.C94_simple",
    "Uip.Program.C94_start",
    "Uip.Program.C94_server_agrees",
    "Uip.Program.C94_packed",
    "Uip.Rust.C94_rust"
   ],
   "note": "Printing is modelled by its parts, not as text; net/http redirects of unclean paths and the JSON encoders are parameters. Missing arguments and unreadable files end the Go programs with a panic (C94_start)."
  },
  {
   "property": "C95",
   "status": "proved",
   "theorems": [
    "Uip.Program.C95_ipdb",
    "Uip.Program.C95_foreign_carrier",
    "Uip.Program.C95_foreign_none"
   ],
   "note": "For IPv6 inputs the network of the address below ::ffff:0:0 must reach over it (otherwise the dump stops early, C58) and two countries must occur (a uniform ::/0 makes the packer panic, C64). C95_foreign_carrier and C95_foreign_none: which addresses outside China get a carrier. The output is opened if it has less than 4 GiB."
  },
  {
   "property": "C96",
   "status": "proved",
   "theorems": [
    "Uip.Program.C96_awdb",
    "Uip.Program.C96_all_main",
    "Uip.Program.C96_awdb_v6",
    "Uip.Program.C96_awdb_lost",
    "Uip.Program.C96_awdb_endless"
   ],
   "note": "C96_awdb (not IPv6), C96_awdb_v6, C96_awdb_lost, C96_awdb_endless. The records have no key asn and no empty key. That the answers with AS numbers are not kept: C57_asn_differs, C96_all_main."
  },
  {
   "property": "C97",
   "status": "proved",
   "theorems": [
    "Spec.C97_load",
    "Spec.C97_too_long",
    "Spec.C97_shipped"
   ],
   "note": "C97_load (all texts of lines below 64 KiB), C97_too_long, C97_shipped. The lines of the shipped lists are transcribed from the Go sources."
  },
  {
   "property": "C98",
   "status": "proved",
   "theorems": [
    "Uip.Ipdb.C98_extended",
    "Uip.Ipdb.C98_rust_cut",
    "Uip.Ipdb.C98_java_cut"
   ],
   "note": "cuts inside the metadata in the Java reader: the JSON library gets a text filled up with NUL bytes; hypothesis NoNegativeSize says it makes no negative size of it (Gson refuses such texts)"
  },
  {
   "property": "C99",
   "status": "proved",
   "theorems": [
    "Uip.Awdb.C99_shape",
    "Uip.Awdb.C99_complete",
    "Uip.Awdb.C99_lost",
    "Uip.Awdb.C99_endless",
    "Uip.Awdb.C99_ends_crossing",
    "Uip.Awdb.C99_ends_mapped"
   ],
   "note": "Exact: C99_shape says what any successful dump looks like, C99_complete, C99_lost and C99_endless which case a file falls in, C99_ends_* that the first two end."
  },
  {
   "property": "C100",
   "status": "proved",
   "theorems": [
    "Uip.Ipdb.Exact.C100_same_answers",
    "Uip.Ipdb.Exact.C100_packed",
    "Uip.Ipdb.Exact.C100_cut"
   ],
   "note": "Ipdb.Exact is a second model of reader.go and querier.go with 64-bit integers and slice capacities; the theorems relate it to the first one"
  },
  {
   "property": "C101",
   "status": "proved",
   "theorems": [
    "Uip.Json.C101_decoded",
    "Uip.Json.C101_round_trip_iff",
    "Uip.Json.C101_round_trip",
    "Uip.Json.C101_pack_query",
    "Uip.Json.C101_cut",
    "Uip.Json.C101_bad_name",
    "Uip.Json.C101_order",
    "Uip.Json.C101_same_bytes",
    "Uip.Json.C101_languages"
   ],
   "note": "encoding/json (go 1.19) modelled in Model/GoJson.lean; C101_languages, C101_order and C101_same_bytes are about any number of languages, the other theorems about the one language the packer writes"
  },
  {
   "property": "C102",
   "status": "proved",
   "theorems": [
    "Uip.Json.C102_decoded",
    "Uip.Json.C102_round_trip",
    "Uip.Json.C102_one_line",
    "Uip.Json.C102_line_ok",
    "Uip.Json.C102_scan_roundtrip",
    "Uip.Json.C102_cut"
   ],
   "note": "the version text must fit the 64 KiB line limit of the reader"
  },
  {
   "property": "C103",
   "status": "proved",
   "theorems": [
    "Uip.Json.C103_body",
    "Uip.Json.C103_faithful",
    "Uip.Json.C103_serve",
    "Uip.Json.C103_version"
   ],
   "note": ""
  },
  {
   "property": "C104",
   "status": "proved",
   "theorems": [
    "Uip.Program.C104_converted",
    "Uip.Program.C104_scan"
   ],
   "note": "With the encoding/json model of C101. C104_converted, C104_scan."
  },
  {
   "property": "C105",
   "status": "proved",
   "theorems": [
    "Uip.Ipdb.C105_means_one",
    "Uip.Ipdb.C105_canonical",
    "Uip.Ipdb.C105_crash_iff",
    "Uip.Ipdb.C105_pack_meant",
    "Uip.Ipdb.C105_query"
   ],
   "note": "C105_means_one and C105_canonical (the meaning), C105_crash_iff, C105_pack_meant, C105_query."
  },
  {
   "property": "C106",
   "status": "proved",
   "theorems": [
    "Uip.Threads.C106_ipdb",
    "Uip.Threads.C106_awdb"
   ],
   "note": "C106_ipdb, C106_awdb. Finding the record is one step of the model, as it only reads memory nobody writes after opening; goroutines that write into their answers are the subject of C87."
  },
  {
   "property": "C107",
   "status": "proved",
   "theorems": [
    "Uip.Program.C107_ideal",
    "Uip.Program.C107_reported",
    "Uip.Program.C107_stopped",
    "Uip.Program.C107_refused",
    "Uip.Program.C107_negation"
   ],
   "note": "C107_reported, C107_stopped for every run; C107_refused for conversions of a table to .ipdb outputs; C107_ideal: with writes that succeed it is the run of the other properties. That an output is complete whenever no error is reported is false of .memip and of .scan headers (C107_negation). Bytes the system has accepted stay in the file; power failures are not modelled."
  },
  {
   "property": "C108",
   "status": "proved",
   "theorems": [
    "Uip.Program.C108_open",
    "Uip.Program.C108_query",
    "Uip.Program.C108_serve"
   ],
   "note": "C108_open, C108_query, C108_serve; what a lookup finds in the bytes of a file is C43, C57 and C63."
  },
  {
   "property": "C109",
   "status": "proved",
   "theorems": [
    "Uip.Program.C109_awdb",
    "Uip.Program.C109_ipdb"
   ],
   "note": "C109_ipdb, C109_awdb. A query reads and writes fields of IpInfo objects one at a time; finding the record is one step, as nothing it reads is ever written after opening. A sequentially consistent memory is assumed: there is no race. That net/http recovers panics of handlers is part of the model of the Go library."
  },
  {
   "property": "C110",
   "status": "proved",
   "theorems": [
    "Uip.Program.C110_survives",
    "Uip.Program.C110_convert",
    "Uip.Program.C110_ipdb",
    "Uip.Program.C110_awdb"
   ],
   "note": "C110_survives, C110_convert (C64), C110_ipdb (C95), C110_awdb (C96) with encoding/json as modelled for C101 to C103; the examples run goSrc and goAw through it."
  },
  {
   "property": "C111",
   "status": "proved",
   "theorems": [
    "Uip.Program.C111_request",
    "Uip.C111_number",
    "Uip.C111_parse",
    "Uip.C111_parse_none",
    "Uip.C111_print4",
    "Uip.C111_print6",
    "Uip.C111_cidr",
    "Uip.C111_cidr_print"
   ],
   "note": "C111_parse, C111_parse_none, C111_cidr, C111_number, C111_print4, C111_print6, C111_cidr_print, C111_request. The functions are of the Go library (net, strconv), which the project calls for every text; their model is part of the trusted base."
  },
  {
   "property": "C112",
   "status": "proved",
   "theorems": [
    "Uip.Json.C112_meta_texts",
    "Uip.Json.C112_meta_null",
    "Uip.Json.C112_meta",
    "Uip.Json.C112_version",
    "Uip.Json.C112_version_texts",
    "Uip.Json.C112_version_null",
    "Uip.Json.C112_meta_written",
    "Uip.Json.C112_version_written",
    "Uip.Json.C112_reply"
   ],
   "note": "C112_meta_texts, C112_meta_null, C112_meta, C112_version, C112_version_texts, C112_version_null, C112_meta_written, C112_version_written, C112_reply. Objects with repeated members are outside the characterisation (Go lets the last one win, field by field). encoding/json itself is of the Go library; its model is part of the trusted base."
  },
  {
   "property": "C113",
   "status": "proved",
   "theorems": [
    "Uip.Ipdb.C113_ordinary",
    "Uip.Ipdb.C113_metadata",
    "Uip.Ipdb.C113_go",
    "Uip.Ipdb.C113_java",
    "Uip.Ipdb.C113_rust"
   ],
   "note": "C113_ordinary, C113_metadata, C113_go, C113_java, C113_rust. The libraries of Java and Rust are not modelled: that they read ordinary metadata as it says (ReadsOrdinary) is the hypothesis."
  },
  {
   "property": "C114",
   "status": "proved",
   "theorems": [
    "Uip.Ipdb.C114_readers",
    "Uip.Ipdb.C114_language",
    "Uip.Ipdb.C114_differ"
   ],
   "note": "C114_readers, C114_language (the Rust reader ignores where CN is) and C114_differ (the conditions are needed). The JSON libraries of Java and Rust are parameters: that they read the same metadata is a hypothesis, discharged for packed files in C113."
  },
  {
   "property": "C115",
   "status": "proved",
   "theorems": [
    "Uip.Ipdb.C115_rust_safe",
    "Uip.Ipdb.C115_java_safe",
    "Uip.Ipdb.C115_needed"
   ],
   "note": "C115_java_safe, C115_rust_safe, C115_needed (nine concrete files, one for each condition)."
  },
  {
   "property": "C116",
   "status": "proved",
   "theorems": [
    "Uip.MapOrder.C116_awdb_query",
    "Uip.MapOrder.C116_awdb_dump",
    "Uip.MapOrder.C116_ipdb_dump",
    "Uip.MapOrder.C116_ipdb_model",
    "Uip.MapOrder.C116_languages_vary"
   ],
   "note": "C116_awdb_query, C116_awdb_dump, C116_ipdb_dump, C116_ipdb_model (the dumps of the other modules are among these), C116_languages_vary (the order of languages does show). The loop of TrimAsnIspDup over a map has its orders in the model of the operations."
  },
  {
   "property": "C117",
   "status": "proved",
   "theorems": [
    "Uip.Program.C117_tables",
    "Uip.Program.C117_same_bytes",
    "Uip.Program.C117_needs_one_carrier"
   ],
   "note": "C117_same_bytes (answers), C117_tables (tables of any input), C117_needs_one_carrier (the condition is needed). Hypotheses of a conversion as in C95; the same metadata codec and clock for both runs."
  },
  {
   "property": "C118",
   "status": "proved",
   "theorems": [
    "Uip.Program.C118_again",
    "Uip.Program.C118_needs_one_carrier",
    "Uip.Program.C118_second_differs"
   ],
   "note": "C118_again; C118_needs_one_carrier (the condition is needed) and C118_second_differs (the first output need not be reproduced) are concrete .scan conversions. Files below 4 GiB, one clock, no line file, hypotheses of a conversion as in C117; ex_again is a concrete input."
  },
  {
   "property": "C119",
   "status": "proved",
   "theorems": [
    "Uip.Program.C119_table",
    "Uip.Program.C119_ipdb",
    "Uip.Program.C119_json",
    "Uip.Program.C119_no_continent"
   ],
   "note": "C119_table (any input read into a table of texts), C119_ipdb (.ipdb inputs, in terms of the answers of the source), C119_json (with the JSON of Go and libraries that read ordinary metadata, C113), C119_no_continent. Examples: ex_converted_readers, ex_continent_lost, goEx_converted_readers. No line file."
  },
  {
   "property": "C120",
   "status": "proved",
   "theorems": [
    "Uip.Program.C120_through_text",
    "Uip.Program.C120_json"
   ],
   "note": "C120_through_text for every program whose version line carries the release (CarriesVersion); C120_json discharges that for the JSON of Go (C102). Example: ex_through_text. That neither can be compared with the database itself (one conversion may leave neighbours that the next merges) is C118_second_differs. No line file."
  },
  {
   "property": "C121",
   "status": "proved",
   "theorems": [
    "Uip.Java.C121_exact",
    "Uip.Java.C121_untouched",
    "Uip.Java.C121_read_only",
    "Uip.Java.C121_negation",
    "Uip.Java.C121_other",
    "Uip.Java.C121_ipv6_file",
    "Uip.Java.C121_packed"
   ],
   "note": "C121_exact is the whole property; C121_read_only, C121_untouched, C121_other, C121_ipv6_file and C121_negation are its parts; C121_packed says it of packed files in terms of their rows. Nothing is assumed of the JSON or UTF-8 libraries except in C121_packed (Gson gives back the metadata written; texts decode to themselves)."
  },
  {
   "property": "C122",
   "status": "proved",
   "theorems": [
    "Uip.Program.C122_undisturbed",
    "Uip.Program.C122_untouched",
    "Uip.Program.C122_endless",
    "Uip.Program.C122_progress",
    "Uip.Program.C122_negation"
   ],
   "note": "C122_undisturbed, C122_progress, C122_endless and C122_untouched; C122_negation shows two converters with one output. A program reads its files to the end before it writes, as DumpFile does for all formats (a .scan dump that stops early reads no more, which makes no difference); files are not removed or renamed while open."
  },
  {
   "property": "C123",
   "status": "proved",
   "theorems": [
    "Uip.Program.C123_negation",
    "Uip.Program.C123_moment",
    "Uip.Program.C123_opened",
    "Uip.Program.C123_mixed",
    "Uip.Program.C123_refused"
   ],
   "note": "C123_moment and C123_opened for all kinds of output; C123_refused for new .ipdb outputs under the hypotheses of C64; C123_mixed and C123_negation: what can happen to an old file."
  },
  {
   "property": "C124",
   "status": "proved",
   "theorems": [
    "Uip.Scanner.C124_lines",
    "Uip.Scanner.C124_one",
    "Uip.Scanner.C124_used"
   ],
   "note": "C124_lines for a model of bufio.Scanner with its buffer, C124_used for the lines the other claims are about, C124_one: the lines are determined. Reads of no bytes without an error are left out."
  },
  {
   "property": "C125",
   "status": "proved",
   "theorems": [
    "Uip.Plain.C125_crash_iff",
    "Uip.Plain.C125_error_iff",
    "Uip.Plain.C125_rows"
   ],
   "note": "exact outcome for every text and every rule: crashes (C125_crash_iff), errors (C125_error_iff), results (C125_rows). Which JSON texts are versions is C112; what a line is is C124. The allocation of Version.Count+1 rows is not modelled."
  },
  {
   "property": "C126",
   "status": "proved",
   "theorems": [
    "Uip.Plain.C126_survives_iff",
    "Uip.Plain.C126_unchanged_iff"
   ],
   "note": "the iff version of C44: C126_survives_iff and C126_unchanged_iff; what the field names and the version text must satisfy are hypotheses (Titles, DefaultsOK, LineOK)."
  },
  {
   "property": "C127",
   "status": "proved",
   "theorems": [
    "Uip.Ipdb.C127_columns",
    "Uip.Ipdb.C127_no_language",
    "Uip.Ipdb.C127_dump",
    "Uip.Ipdb.C127_agree"
   ],
   "note": "C127_columns, C127_no_language, C127_dump, C127_agree. Dumps under a rule export the same columns (C25_ipdb, C29). That a dump succeeds: C26, C28."
  },
  {
   "property": "C128",
   "status": "proved",
   "theorems": [
    "Uip.Ipdb.C128_readers"
   ],
   "note": "C128_readers. Conditions on the dump (Packable): a known field, no row for all addresses, records below 64 KiB, only UTF-8 texts; at most one continent column; the new file is below 2 GiB and the clock within 32 bits. The JSON libraries of Java and Rust are parameters that read ordinary metadata as it says (C113)."
  }
 ]
}