{"claims": [
 {"property": "C01", "status": "proved", "theorems": ["Warc.C01_collect_is_the_loop", "Warc.C01_round_trip", "Warc.C01_content"], "note": ""},
 {"property": "C02", "status": "proved", "theorems": ["Warc.C02_offsets"], "note": ""},
 {"property": "C03", "status": "proved", "theorems": ["Warc.C03_random_access"], "note": ""},
 {"property": "C04", "status": "proved", "theorems": ["Warc.C04_reads_stay_inside", "Warc.C04_no_length", "Warc.C04_single_calls"], "note": ""},
 {"property": "C05", "status": "proved", "theorems": ["Warc.C05_next_record_independent", "Warc.C05_scans_agree"], "note": ""},
 {"property": "C06", "status": "proved", "theorems": ["Warc.C06_terminators_skipped", "Warc.C06_any_terminators"], "note": ""},
 {"property": "C07", "status": "proved", "theorems": ["Warc.C07_truncation_keeps_complete_records"], "note": ""},
 {"property": "C08", "status": "proved", "theorems": ["Warc.C08_truncated_payload_detected", "Warc.C08_cut_in_payload"], "note": ""},
 {"property": "C09", "status": "proved", "theorems": ["Warc.C09_outcome", "Warc.C09_hang_is_real", "Warc.C09_loop_ends", "Warc.C09_scan_terminates", "Warc.C09_terminates"], "note": "The code can loop forever; the exact inputs are characterised (C09_outcome), divergence of the loop is proved (C09_hang_is_real) and termination is proved for all other inputs."},
 {"property": "C10", "status": "proved", "theorems": ["Warc.C10_unknown_version_raises"], "note": "Refutes the intended behaviour (an entry in record.errors): every unknown version number raises TypeError."},
 {"property": "C11", "status": "proved", "theorems": ["Warc.C11_junk_skipped", "Warc.C11_gives_up"], "note": ""},
 {"property": "C12", "status": "proved", "theorems": ["Warc.C12_errors_exact", "Warc.C12_empty_value_flagged"], "note": "Exact characterisation; C12_empty_value_flagged shows the surprising case 'Name:\\r\\n'."},
 {"property": "C13", "status": "proved", "theorems": ["Warc.C13_folded_headers"], "note": ""},
 {"property": "C14", "status": "proved", "theorems": ["Warc.C14_get_header"], "note": ""},
 {"property": "C15", "status": "proved", "theorems": ["Warc.C15_set_header", "Warc.C15_case_variant_survives"], "note": "Same-case names only; C15_case_variant_survives shows what happens with a differently cased earlier header."},
 {"property": "C16", "status": "proved", "theorems": ["Warc.C16_first_access", "Warc.C16_failed_read", "Warc.C16_stable"], "note": ""},
 {"property": "C17", "status": "proved", "theorems": ["Warc.C17_tuple_any_number", "Warc.C17_content_file_once", "Warc.C17_stream_once"], "note": ""},
 {"property": "C18", "status": "proved", "theorems": ["Warc.C18_written_bytes", "Warc.C18_length_is_real"], "note": ""},
 {"property": "C19", "status": "proved", "theorems": ["Warc.C19_content_file_bytes", "Warc.C19_round_trip"], "note": ""},
 {"property": "C20", "status": "proved", "theorems": ["Warc.C20_list_is_the_loop", "Warc.C20_limit_is_prefix", "Warc.C20_limit_end", "Warc.C20_stops_at_end"], "note": ""},
 {"property": "C21", "status": "proved", "theorems": ["Warc.C21_iteration"], "note": ""},
 {"property": "C22", "status": "proved", "theorems": ["Warc.C22_is_gzip", "Warc.C22_guess_position", "Warc.C22_guess_determined"], "note": ""},
 {"property": "C23", "status": "proved", "theorems": ["Warc.C23_plain", "Warc.C23_gzip", "Warc.C23_open", "Warc.C23_warc", "Warc.C23_arc", "Warc.C23_arc_misdetected"], "note": "Exact characterisation of the guess; C23_arc_misdetected shows that an ARC file named '...warc/...' is taken for WARC."},
 {"property": "C24", "status": "proved", "theorems": ["Warc.C24_compressed_round_trip"], "note": ""},
 {"property": "C25", "status": "proved", "theorems": ["Warc.C25_offsets_missing", "Warc.C25_opened"], "note": "Refutes the intended behaviour: offsets in compressed archives are never reported (None) on CPython >= 3.5."},
 {"property": "C26", "status": "proved", "theorems": ["Warc.C26_nothing_read", "Warc.C26_scan_empty"], "note": "Refutes the intended behaviour: gzip='file' streams never yield a record (NameError)."},
 {"property": "C27", "status": "proved", "theorems": ["Warc.C27_round_trip", "Warc.C27_round_trip_guess", "Warc.C27_round_trip_gzip"], "note": ""},
 {"property": "C28", "status": "proved", "theorems": ["Warc.C28_url_with_blanks", "Warc.C28_too_few_values", "Warc.C28_single_field"], "note": "Also: too few values raise TypeError, and the rule does not apply when URL is the only field."},
 {"property": "C29", "status": "proved", "theorems": ["Warc.C29_refused", "Warc.C29_names_in_force"], "note": ""},
 {"property": "C30", "status": "proved", "theorems": ["Warc.C30_mixed"], "note": ""},
 {"property": "C31", "status": "proved", "theorems": ["Warc.C31_any_pieces", "Warc.C31_messages", "Warc.C31_leading_blank_line", "Warc.C31_gzip_split", "Warc.C31_broken_chunks_split"], "note": "The exceptions named in the statement are necessary: messages that come out differently in pieces are exhibited for the first three, the fourth is C39."},
 {"property": "C32", "status": "proved", "theorems": ["Warc.C32_conservation", "Warc.C32_conservation_pieces", "Warc.C32_gzip_lost"], "note": ""},
 {"property": "C33", "status": "proved", "theorems": ["Warc.C33_chunked", "Warc.C33_sizes"], "note": ""},
 {"property": "C34", "status": "proved", "theorems": ["Warc.C34_length"], "note": ""},
 {"property": "C35", "status": "proved", "theorems": ["Warc.C35_close"], "note": ""},
 {"property": "C36", "status": "proved", "theorems": ["Warc.C36_no_body"], "note": ""},
 {"property": "C37", "status": "proved", "theorems": ["Warc.C37_framing", "Warc.C37_bad_length", "Warc.C37_rules"], "note": ""},
 {"property": "C38", "status": "proved", "theorems": ["Warc.C38_truncated"], "note": ""},
 {"property": "C39", "status": "proved", "theorems": ["Warc.C39_interim", "Warc.C39_one_interim", "Warc.C39_two_at_once"], "note": ""},
 {"property": "C40", "status": "proved", "theorems": ["Warc.C40_terminates", "Warc.C40_minus", "Warc.C40_negative_size_hangs"], "note": ""},
 {"property": "C41", "status": "proved", "theorems": ["Warc.C41_decoded", "Warc.C41_plain"], "note": ""},
 {"property": "C42", "status": "proved", "theorems": ["Warc.C42_wrong_length", "Warc.C42_body_cut", "Warc.C42_body_short"], "note": ""},
 {"property": "C43", "status": "proved", "theorems": ["Warc.C43_accepts_iff", "Warc.C43_exit_codes", "Warc.C43_terminates", "Warc.C43_ends", "Warc.C43_accepts_archives", "Warc.C43_rejects_truncated", "Warc.C43_accepts_cut_header"], "note": ""},
 {"property": "C44", "status": "proved", "theorems": ["Warc.C44_index", "Warc.C44_positions", "Warc.C44_length"], "note": ""},
 {"property": "C45", "status": "proved", "theorems": ["Warc.C45_filter", "Warc.C45_partition", "Warc.C45_rewritten", "Warc.C45_http", "Warc.C45_http_stops"], "note": ""},
 {"property": "C46", "status": "proved", "theorems": ["Warc.C46_copies", "Warc.C46_compresses", "Warc.C46_junk_raises", "Warc.C46_any", "Warc.C46_same_records", "Warc.C46_same_records_gz"], "note": ""},
 {"property": "C47", "status": "proved", "theorems": ["Warc.C47_wget_no_effect", "Warc.C47_others_copied", "Warc.C47_never_decodes"], "note": ""},
 {"property": "C48", "status": "proved", "theorems": ["Warc.C48_converts", "Warc.C48_response", "Warc.C48_truncated", "Warc.C48_trailing", "Warc.C48_readable", "Warc.C48_readable_gzip", "Warc.C48_stops", "Warc.C48_damaged", "Warc.C48_output_option"], "note": ""},
 {"property": "C49", "status": "proved", "theorems": ["Warc.C49_linked"], "note": ""},
 {"property": "C50", "status": "proved", "theorems": ["Warc.C50_determined", "Warc.C50_collision", "Warc.C50_text", "Warc.C50_text_filedesc", "Warc.C50_random", "Warc.C50_distinct", "Warc.C50_not_distinct"], "note": "Refutes uniqueness: two records can be given the same id."},
 {"property": "C51", "status": "proved", "theorems": ["Warc.C51_extract", "Warc.C51_extract_gz", "Warc.C51_extract_indexed", "Warc.C51_payload", "Warc.C51_payload_no_type", "Warc.C51_no_record", "Warc.C51_at_end"], "note": ""},
 {"property": "C52", "status": "proved", "theorems": ["Warc.C52_format", "Warc.C52_aware", "Warc.C52_ordered", "Warc.C52_injective", "Warc.C52_from_arc", "Warc.C52_calendar", "Warc.C52_from_arc_short", "Warc.C52_minutes_misread", "Warc.C52_accepts_only", "Warc.C52_accepts_only_short"], "note": ""},
 {"property": "C53", "status": "proved", "theorems": ["Warc.C53_range", "Warc.C53_one_too_many", "Warc.C53_from", "Warc.C53_always_raises", "Warc.C53_request"], "note": "Refutes the intended behaviour: ranges are one byte too long and the answer raises TypeError."},
 {"property": "C54", "status": "proved", "theorems": ["Warc.C54_seek_exact", "Warc.C54_seek_after_complete_read", "Warc.C54_seek_defect"], "note": "C54_seek_exact is the part that holds for every history, C54_seek_defect shows that seeking in the middle of a payload is not enough."},
 {"property": "C55", "status": "proved", "theorems": ["Warc.C55_accessors", "Warc.C55_round_trip"], "note": ""},
 {"property": "C56", "status": "proved", "theorems": ["Warc.C56_inside", "Warc.C56_escape", "Warc.C56_cut", "Warc.C56_long", "Warc.C56_default_name"], "note": "Shows where confinement holds and that '..' in a URL leaves the directory."},
 {"property": "C57", "status": "proved", "theorems": ["Warc.C57_negative_read_runs_past_payload", "Warc.C57_negative_readline", "Warc.C57_negative_length"], "note": "Refutes the intended behaviour: negative sizes run past the payload."},
 {"property": "C58", "status": "proved", "theorems": ["Warc.C58_writable", "Warc.C58_rereads", "Warc.C58_folded_changes"], "note": ""},
 {"property": "C59", "status": "proved", "theorems": ["Warc.C59_list", "Warc.C59_expand", "Warc.C59_names_back", "Warc.C59_question_mark"], "note": ""},
 {"property": "C60", "status": "proved", "theorems": ["Warc.C60_fresh"], "note": ""},
 {"property": "C61", "status": "proved", "theorems": ["Warc.C61_read", "Warc.C61_rounds", "Warc.C61_warcvalid", "Warc.C61_warcindex", "Warc.C61_warcfilter", "Warc.C61_warc2warc", "Warc.C61_arc2warc", "Warc.C61_warcextract", "Warc.C61_warcpayload", "Warc.C61_stuck_hangs"], "note": ""},
 {"property": "C62", "status": "proved", "theorems": ["Warc.C62_predict", "Warc.C62_reads_one", "Warc.C62_never_returns", "Warc.C62_no_readLine"], "note": "Includes the defects of feed_fd and readLine."},
 {"property": "C63", "status": "proved", "theorems": ["Warc.C63_everything", "Warc.C63_rest_lost", "Warc.C63_status_line"], "note": ""},
 {"property": "C64", "status": "proved", "theorems": ["Warc.C64_target", "Warc.C64_line_unique", "Warc.C64_origin", "Warc.C64_mixed", "Warc.C64_decoded", "Warc.C64_url", "Warc.C64_url_port", "Warc.C64_url_absolute"], "note": ""},
 {"property": "C65", "status": "proved", "theorems": ["Warc.C65_connection", "Warc.C65_rules"], "note": ""},
 {"property": "C66", "status": "proved", "theorems": ["Warc.C66_file", "Warc.C66_files", "Warc.C66_stops", "Warc.C66_archives", "Warc.C66_terminates", "Warc.C66_preview", "Warc.C66_ambiguous", "Warc.C66_headers_only", "Warc.C66_lines_shown"], "note": "Exact output; also the records on which warcdump raises."},
 {"property": "C67", "status": "proved", "theorems": ["Warc.C67_cut", "Warc.C67_archive", "Warc.C67_record_members", "Warc.C67_never_complete", "Warc.C67_warcvalid"], "note": "Cut law of the codec (Codec.Cut) is the only assumption, with the toy instance."},
 {"property": "C68", "status": "proved", "theorems": ["Warc.C68_layout", "Warc.C68_decoded", "Warc.C68_no_colon", "Warc.C68_first_fold", "Warc.C68_bad_start"], "note": ""},
 {"property": "C69", "status": "proved", "theorems": ["Warc.C69_writes_nothing", "Warc.C69_main", "Warc.C69_log_loss", "Warc.C69_log_place"], "note": "Refutes the intended behaviour (files are unpacked)."},
 {"property": "C70", "status": "proved", "theorems": ["Warc.C70_resolve", "Warc.C70_scheme_ignored", "Warc.C70_host", "Warc.C70_same_document"], "note": "Full for the described references; the other theorems of C70 describe the cases where the code departs from RFC 3986."},
 {"property": "C71", "status": "proved", "theorems": ["Warc.C71_links", "Warc.C71_refresh", "Warc.C71_refresh_blank"], "note": ""},
 {"property": "C72", "status": "proved", "theorems": ["Warc.C72_no_links"], "note": "Refutes the intended behaviour."},
 {"property": "C73", "status": "proved", "theorems": ["Warc.C73_stale_content", "Warc.C73_stale_write", "Warc.C73_contents_after_the_end"], "note": ""},
 {"property": "C74", "status": "proved", "theorems": ["Warc.C74_seek_fresh", "Warc.C74_seek_after_reading", "Warc.C74_seek_small_file"], "note": ""},
 {"property": "C75", "status": "proved", "theorems": ["Warc.C75_pipeline", "Warc.C75_any_moment", "Warc.C75_close"], "note": ""},
 {"property": "C76", "status": "proved", "theorems": ["Warc.C76_raw"], "note": ""},
 {"property": "C77", "status": "proved", "theorems": ["Warc.C77_device", "Warc.C77_tuple", "Warc.C77_retry", "Warc.C77_retry_file", "Warc.C77_crash"], "note": ""},
 {"property": "C78", "status": "proved", "theorems": ["Warc.C78_stream_write"], "note": ""},
 {"property": "C79", "status": "proved", "theorems": ["Warc.C79_record", "Warc.C79_error", "Warc.C79_scan", "Warc.C79_file", "Warc.C79_members"], "note": ""},
 {"property": "C80", "status": "proved", "theorems": ["Warc.C80_record", "Warc.C80_offset", "Warc.C80_scan", "Warc.C80_open", "Warc.C80_extract"], "note": ""},
 {"property": "C81", "status": "proved", "theorems": ["Warc.C81_scan", "Warc.C81_open"], "note": ""},
 {"property": "C82", "status": "proved", "theorems": ["Warc.C82_scan", "Warc.C82_file", "Warc.C82_members", "Warc.C82_archive"], "note": ""},
 {"property": "C83", "status": "proved", "theorems": ["Warc.C83_headers", "Warc.C83_content_type", "Warc.C83_content_length", "Warc.C83_before_and_after", "Warc.C83_several_lengths"], "note": ""},
 {"property": "C84", "status": "proved", "theorems": ["Warc.C84_stdin"], "note": ""},
 {"property": "C85", "status": "proved", "theorems": ["Warc.C85_valid_copy", "Warc.C85_valid_copy_gz", "Warc.C85_repairs", "Warc.C85_arc2warc", "Warc.C85_negative_length"], "note": ""},
 {"property": "C86", "status": "proved", "theorems": ["Warc.C86_scan", "Warc.C86_records", "Warc.C86_collect", "Warc.C86_iterate", "Warc.C86_none"], "note": ""},
 {"property": "C87", "status": "proved", "theorems": ["Warc.C87_index", "Warc.C87_extract", "Warc.C87_payload"], "note": ""},
 {"property": "C88", "status": "proved", "theorems": ["Warc.C88_crawl", "Warc.C88_tools"], "note": ""},
 {"property": "C89", "status": "proved", "theorems": ["Warc.C89_copy", "Warc.C89_copy_gz", "Warc.C89_filter_any", "Warc.C89_filter", "Warc.C89_index", "Warc.C89_recover"], "note": ""},
 {"property": "C90", "status": "proved", "theorems": ["Warc.C90_warc", "Warc.C90_twice"], "note": ""},
 {"property": "C91", "status": "proved", "theorems": ["Warc.C91_returns", "Warc.C91_stops", "Warc.C91_converts"], "note": ""},
 {"property": "C92", "status": "proved", "theorems": ["Warc.C92_sized", "Warc.C92_to_end", "Warc.C92_no_body", "Warc.C92_chunked", "Warc.C92_chunked_cut", "Warc.C92_message", "Warc.C92_terminates"], "note": ""},
 {"property": "C93", "status": "proved", "theorems": ["Warc.C93_payload_only", "Warc.C93_same"], "note": ""},
 {"property": "C94", "status": "proved", "theorems": ["Warc.C94_parse", "Warc.C94_tables", "Warc.C94_warc2warc", "Warc.C94_warcfilter", "Warc.C94_bad_pattern", "Warc.C94_warcindex", "Warc.C94_warcdump", "Warc.C94_warcvalid", "Warc.C94_warcextract", "Warc.C94_negative", "Warc.C94_warcpayload", "Warc.C94_warcpayload_usage", "Warc.C94_usage", "Warc.C94_no_operand", "Warc.C94_options", "Warc.C94_stdin", "Warc.C94_output_ignored", "Warc.C94_ignored", "Warc.C94_arc2warc", "Warc.C94_warcunpack", "Warc.C94_warclinks"], "note": ""},
 {"property": "C95", "status": "proved", "theorems": ["Warc.C95_place", "Warc.C95_every_name"], "note": ""},
 {"property": "C96", "status": "proved", "theorems": ["Warc.C96_stdout", "Warc.C96_stops", "Warc.C96_prefix_option", "Warc.C96_output", "Warc.C96_output_arc", "Warc.C96_no_operand", "Warc.C96_usage"], "note": ""},
 {"property": "C97", "status": "proved", "theorems": ["Warc.C97_through_or_not", "Warc.C97_readable", "Warc.C97_warclinks", "Warc.C97_status_zero", "Warc.C97_links_usage", "Warc.C97_unpack", "Warc.C97_unpack_stdin", "Warc.C97_unpack_usage"], "note": ""},
 {"property": "C98", "status": "proved", "theorems": ["Warc.C98_one_call", "Warc.C98_whole", "Warc.C98_after_head", "Warc.C98_decoded", "Warc.C98_filter", "Warc.C98_filter_stops", "Warc.C98_never_decodes"], "note": ""},
 {"property": "C99", "status": "proved", "theorems": ["Warc.C99_one_call", "Warc.C99_head_first", "Warc.C99_split_line", "Warc.C99_no_line", "Warc.C99_later"], "note": ""},
 {"property": "C100", "status": "proved", "theorems": ["Warc.C100_reader", "Warc.C100_copy", "Warc.C100_filter", "Warc.C100_index", "Warc.C100_valid"], "note": ""},
 {"property": "C101", "status": "proved", "theorems": ["Warc.C101_seek", "Warc.C101_open_and_seek", "Warc.C101_open_filedesc", "Warc.C101_open_data", "Warc.C101_wrong_names"], "note": ""},
 {"property": "C102", "status": "proved", "theorems": ["Warc.C102_places", "Warc.C102_tag", "Warc.C102_value", "Warc.C102_blank", "Warc.C102_number", "Warc.C102_name", "Warc.C102_payload", "Warc.C102_payload_short", "Warc.C102_payload_lost", "Warc.C102_trailer", "Warc.C102_unnoticed"], "note": ""},
 {"property": "C103", "status": "proved", "theorems": ["Warc.C103_calls", "Warc.C103_same_bytes", "Warc.C103_returned", "Warc.C103_killed", "Warc.C103_killed_read", "Warc.C103_never_partial", "Warc.C103_gzip", "Warc.C103_gzip_killed"], "note": ""},
 {"property": "C104", "status": "proved", "theorems": ["Warc.C104_small", "Warc.C104_large", "Warc.C104_gzip"], "note": ""},
 {"property": "C105", "status": "proved", "theorems": ["Warc.C105_exit", "Warc.C105_messages", "Warc.C105_offset", "Warc.C105_compressed"], "note": ""},
 {"property": "C106", "status": "proved", "theorems": ["Warc.C106_next", "Warc.C106_file", "Warc.C106_compressed"], "note": ""},
 {"property": "C107", "status": "proved", "theorems": ["Warc.C107_next", "Warc.C107_file", "Warc.C107_compressed"], "note": ""},
 {"property": "C108", "status": "proved", "theorems": ["Warc.C108_copy", "Warc.C108_compress", "Warc.C108_filter", "Warc.C108_index", "Warc.C108_dump", "Warc.C108_extract", "Warc.C108_payload"], "note": ""},
 {"property": "C109", "status": "proved", "theorems": ["Warc.C109_feed", "Warc.C109_pieces", "Warc.C109_response", "Warc.C109_not_response", "Warc.C109_decoded_response", "Warc.C109_decoded_request"], "note": ""},
 {"property": "C110", "status": "proved", "theorems": ["Warc.C110_http_filter", "Warc.C110_decode", "Warc.C110_wget_no_effect", "Warc.C110_bare_url", "Warc.C110_never_decoded"], "note": ""},
 {"property": "C111", "status": "proved", "theorems": ["Warc.C111_convert", "Warc.C111_command", "Warc.C111_output_option", "Warc.C111_prefix_option"], "note": ""},
 {"property": "C112", "status": "proved", "theorems": ["Warc.C112_bytes", "Warc.C112_bytes_file", "Warc.C112_bytes_read", "Warc.C112_bytes_gzip", "Warc.C112_written", "Warc.C112_line_feed", "Warc.C112_line_feed_gzip", "Warc.C112_rejected"], "note": ""},
 {"property": "C113", "status": "proved", "theorems": ["Warc.C113_next", "Warc.C113_file"], "note": ""},
 {"property": "C114", "status": "proved", "theorems": ["Warc.C114_copy", "Warc.C114_compress", "Warc.C114_filter", "Warc.C114_index", "Warc.C114_dump"], "note": ""},
 {"property": "C115", "status": "proved", "theorems": ["Warc.C115_messages", "Warc.C115_valid", "Warc.C115_damaged"], "note": ""},
 {"property": "C116", "status": "proved", "theorems": ["Warc.C116_extract", "Warc.C116_payload"], "note": ""},
 {"property": "C117", "status": "proved", "theorems": ["Warc.C117_next", "Warc.C117_file"], "note": ""},
 {"property": "C118", "status": "proved", "theorems": ["Warc.C118_convert", "Warc.C118_command", "Warc.C118_damaged_stops"], "note": ""},
 {"property": "C119", "status": "proved", "theorems": ["Warc.C119_file", "Warc.C119_warclinks", "Warc.C119_damaged"], "note": ""},
 {"property": "C120", "status": "proved", "theorems": ["Warc.C120_white_space", "Warc.C120_white_space_gzip", "Warc.C120_proper", "Warc.C120_readable", "Warc.C120_readable_gzip", "Warc.C120_valid", "Warc.C120_stopped", "Warc.C120_stopped_valid", "Warc.C120_first", "Warc.C120_recovered"], "note": ""},
 {"property": "C121", "status": "proved", "theorems": ["Warc.C121_record", "Warc.C121_warc2warc", "Warc.C121_arc2warc", "Warc.C121_last_member", "Warc.C121_first", "Warc.C121_recovered"], "note": ""}
]}
