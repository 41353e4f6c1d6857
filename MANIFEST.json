{
 "claims": [
  {
   "property": "C01",
   "status": "proved",
   "theorems": [
    "Verif.Props.C01_round_trip"
   ],
   "note": ""
  },
  {
   "property": "C02",
   "status": "proved",
   "theorems": [
    "Verif.Props.C02_encoded_size"
   ],
   "note": ""
  },
  {
   "property": "C03",
   "status": "proved",
   "theorems": [
    "Verif.Props.C03_minimal_form"
   ],
   "note": ""
  },
  {
   "property": "C04",
   "status": "proved",
   "theorems": [
    "Verif.Props.C04_slice_decoder"
   ],
   "note": ""
  },
  {
   "property": "C05",
   "status": "proved",
   "theorems": [
    "Verif.Props.C05_decoders_agree"
   ],
   "note": ""
  },
  {
   "property": "C06",
   "status": "proved",
   "theorems": [
    "Verif.Props.C06_prefix_free"
   ],
   "note": ""
  },
  {
   "property": "C07",
   "status": "proved",
   "theorems": [
    "Verif.Props.C07_monotone"
   ],
   "note": ""
  },
  {
   "property": "C08",
   "status": "proved",
   "theorems": [
    "Verif.Props.C08_zigzag"
   ],
   "note": ""
  },
  {
   "property": "C09",
   "status": "proved",
   "theorems": [
    "Verif.Props.C09_signed_round_trip"
   ],
   "note": ""
  },
  {
   "property": "C10",
   "status": "proved",
   "theorems": [
    "Verif.Props.C10_accepted_forms",
    "Verif.Props.C10_unique_iff"
   ],
   "note": "uniqueness of encodings holds exactly as C10_unique_iff says; the exact set of accepted forms is proved"
  },
  {
   "property": "C11",
   "status": "proved",
   "theorems": [
    "Verif.Props.C11_ByteArrayReader",
    "Verif.Props.C11_VecReader"
   ],
   "note": ""
  },
  {
   "property": "C12",
   "status": "proved",
   "theorems": [
    "Verif.Props.C12_interchangeable"
   ],
   "note": ""
  },
  {
   "property": "C13",
   "status": "proved",
   "theorems": [
    "Verif.Props.C13_default_skip",
    "Verif.Props.C13_default_skip_u64",
    "Verif.Props.C13_default_skip_u64_64bit",
    "Verif.Props.C13_in_memory_skip"
   ],
   "note": ""
  },
  {
   "property": "C14",
   "status": "proved",
   "theorems": [
    "Verif.Props.C14_VecWriter_is_file"
   ],
   "note": ""
  },
  {
   "property": "C15",
   "status": "proved",
   "theorems": [
    "Verif.Props.C15_write_all_bytewise"
   ],
   "note": ""
  },
  {
   "property": "C16",
   "status": "proved",
   "theorems": [
    "Verif.Props.C16_BorrowedVecWriter_is_file",
    "Verif.Props.C16_counts_and_preserves",
    "Verif.Props.C16_new_overwrites",
    "Verif.Props.C16_bytes_written_underflow"
   ],
   "note": "bytes_written fails after set_offset before the start (C16_bytes_written_underflow); the stated conditional claim is proved in full"
  },
  {
   "property": "C17",
   "status": "proved",
   "theorems": [
    "Verif.Props.C17_ByteArrayWriter_is_fixed_file"
   ],
   "note": ""
  },
  {
   "property": "C18",
   "status": "proved",
   "theorems": [
    "Verif.Props.C18_limit_is_respected",
    "Verif.Props.C18_too_large_refused"
   ],
   "note": ""
  },
  {
   "property": "C19",
   "status": "proved",
   "theorems": [
    "Verif.Props.C19_refusal_consumes_nothing",
    "Verif.Props.C19_refused_skip_consumes",
    "Verif.Props.C19_documented_claim_false"
   ],
   "note": "the documented claim is false for skips above 512 bytes (witness); what holds is proved"
  },
  {
   "property": "C20",
   "status": "proved",
   "theorems": [
    "Verif.Props.C20_goto_end",
    "Verif.Props.C20_goto_end_available"
   ],
   "note": ""
  },
  {
   "property": "C21",
   "status": "proved",
   "theorems": [
    "Verif.Props.C21_schedule_independent",
    "Verif.Props.C21_same_as_array",
    "Verif.Props.C21_success_is_exact"
   ],
   "note": ""
  },
  {
   "property": "C22",
   "status": "proved",
   "theorems": [
    "Verif.Props.C22_write_all",
    "Verif.Props.C22_history"
   ],
   "note": ""
  },
  {
   "property": "C23",
   "status": "proved",
   "theorems": [
    "Verif.Props.C23_skip",
    "Verif.Props.C23_skip_usize",
    "Verif.Props.C23_overflow"
   ],
   "note": "conditional on position + count < 2^64; C23_overflow says what happens otherwise"
  },
  {
   "property": "C24",
   "status": "proved",
   "theorems": [
    "Verif.Props.C24_sized_seek",
    "Verif.Props.C24_seek_writer"
   ],
   "note": "available underflows past the end: stated and proved as such"
  },
  {
   "property": "C25",
   "status": "proved",
   "theorems": [
    "Verif.Props.C25_unsigned",
    "Verif.Props.C25_signed",
    "Verif.Props.C25_floats"
   ],
   "note": ""
  },
  {
   "property": "C26",
   "status": "proved",
   "theorems": [
    "Verif.Props.C26_read_string",
    "Verif.Props.C26_read_string_short",
    "Verif.Props.C26_write_string",
    "Verif.Props.C26_round_trip"
   ],
   "note": ""
  },
  {
   "property": "C27",
   "status": "proved",
   "theorems": [
    "Verif.Props.C27_classes",
    "Verif.Props.C27_tag_size"
   ],
   "note": ""
  },
  {
   "property": "C28",
   "status": "proved",
   "theorems": [
    "Verif.Props.C28_size"
   ],
   "note": ""
  },
  {
   "property": "C29",
   "status": "proved",
   "theorems": [
    "Verif.Props.C29_to_bytes",
    "Verif.Props.C29_any_writer",
    "Verif.Props.C29_any_sink"
   ],
   "note": ""
  },
  {
   "property": "C30",
   "status": "proved",
   "theorems": [
    "Verif.Props.C30_exactly",
    "Verif.Props.C30_round_trip",
    "Verif.Props.C30_standard"
   ],
   "note": ""
  },
  {
   "property": "C31",
   "status": "proved",
   "theorems": [
    "Verif.Props.C31_self_delimiting",
    "Verif.Props.C31_lists"
   ],
   "note": ""
  },
  {
   "property": "C32",
   "status": "proved",
   "theorems": [
    "Verif.Props.C32_prefix_free",
    "Verif.Props.C32_injective"
   ],
   "note": ""
  },
  {
   "property": "C33",
   "status": "proved",
   "theorems": [
    "Verif.Props.C33_trailing"
   ],
   "note": ""
  },
  {
   "property": "C34",
   "status": "proved",
   "theorems": [
    "Verif.Props.C34_prefix",
    "Verif.Props.C34_truncated_stream"
   ],
   "note": ""
  },
  {
   "property": "C35",
   "status": "proved",
   "theorems": [
    "Verif.Props.C35_accepted_tags",
    "Verif.Props.C35_normalise"
   ],
   "note": ""
  },
  {
   "property": "C36",
   "status": "proved",
   "theorems": [
    "Verif.Props.C36_any_reader",
    "Verif.Props.C36_bytes",
    "Verif.Props.C36_streams"
   ],
   "note": ""
  },
  {
   "property": "C37",
   "status": "proved",
   "theorems": [
    "Verif.Props.C37_too_large",
    "Verif.Props.C37_requests",
    "Verif.Props.C37_memory"
   ],
   "note": ""
  },
  {
   "property": "C38",
   "status": "proved",
   "theorems": [
    "Verif.Props.C38_hash_order"
   ],
   "note": ""
  },
  {
   "property": "C39",
   "status": "proved",
   "theorems": [
    "Verif.Props.C39_dict_last_wins",
    "Verif.Props.C39_strDict_last_wins",
    "Verif.Props.C39_dict_sorted",
    "Verif.Props.C39_strDict_sorted"
   ],
   "note": ""
  },
  {
   "property": "C40",
   "status": "proved",
   "theorems": [
    "Verif.Props.C40_dict_reads_strDict",
    "Verif.Props.C40_strDict_reads_dict",
    "Verif.Props.C40_same_value_bytes"
   ],
   "note": ""
  },
  {
   "property": "C41",
   "status": "proved",
   "theorems": [
    "Verif.Props.C41_bytes",
    "Verif.Props.C41_ilints",
    "Verif.Props.C41_bytes_exchanged",
    "Verif.Props.C41_ilints_exchanged"
   ],
   "note": ""
  },
  {
   "property": "C42",
   "status": "proved",
   "theorems": [
    "Verif.Props.C42_unknown",
    "Verif.Props.C42_raw",
    "Verif.Props.C42_raw_accepted"
   ],
   "note": ""
  },
  {
   "property": "C43",
   "status": "proved",
   "theorems": [
    "Verif.Props.C43_unknown_preserved"
   ],
   "note": ""
  },
  {
   "property": "C44",
   "status": "proved",
   "theorems": [
    "Verif.Props.C44_create",
    "Verif.Props.C44_previous",
    "Verif.Props.C44_others",
    "Verif.Props.C44_standard"
   ],
   "note": ""
  },
  {
   "property": "C45",
   "status": "proved",
   "theorems": [
    "Verif.Props.C45_standard_engine",
    "Verif.Props.C45_standard_ids"
   ],
   "note": ""
  },
  {
   "property": "C46",
   "status": "proved",
   "theorems": [
    "Verif.Props.C46_create",
    "Verif.Props.C46_deserialize",
    "Verif.Props.C46_wrong_id"
   ],
   "note": ""
  },
  {
   "property": "C47",
   "status": "proved",
   "theorems": [
    "Verif.Props.C47_into_eq_deserialize"
   ],
   "note": ""
  },
  {
   "property": "C48",
   "status": "proved",
   "theorems": [
    "Verif.Props.C48_mismatch",
    "Verif.Props.C48_id_and_type_kept",
    "Verif.Props.C48_untouched",
    "Verif.Props.C48_partial_overwrite"
   ],
   "note": ""
  },
  {
   "property": "C49",
   "status": "proved",
   "theorems": [
    "Verif.Props.C49_value_bounded"
   ],
   "note": ""
  },
  {
   "property": "C50",
   "status": "proved",
   "theorems": [
    "Verif.Props.C50_all_read",
    "Verif.Props.C50_left_over",
    "Verif.Props.C50_ilint"
   ],
   "note": ""
  },
  {
   "property": "C51",
   "status": "proved",
   "theorems": [
    "Verif.Props.C51_only_size",
    "Verif.Props.C51_factory",
    "Verif.Props.C51_bool"
   ],
   "note": ""
  },
  {
   "property": "C52",
   "status": "proved",
   "theorems": [
    "Verif.Props.C52_deserialize",
    "Verif.Props.C52_other_id",
    "Verif.Props.C52_into",
    "Verif.Props.C52_size_and_serialize"
   ],
   "note": ""
  },
  {
   "property": "C53",
   "status": "proved",
   "theorems": [
    "Verif.Props.C53_refl",
    "Verif.Props.C53_symm",
    "Verif.Props.C53_trans",
    "Verif.Props.C53_content",
    "Verif.Props.C53_bytes",
    "Verif.Props.C53_not_reflexive"
   ],
   "note": "reflexivity needs a tag that serializes; stated with that condition"
  },
  {
   "property": "C54",
   "status": "proved",
   "theorems": [
    "Verif.Props.C54_supported",
    "Verif.Props.C54_custom",
    "Verif.Props.C54_same_clone",
    "Verif.Props.C54_clone_of_clone"
   ],
   "note": ""
  },
  {
   "property": "C55",
   "status": "proved",
   "theorems": [
    "Verif.Props.C55_factory_unused",
    "Verif.Props.C55_untouchable",
    "Verif.Props.C55_same_or_panic",
    "Verif.Props.C55_touched"
   ],
   "note": ""
  },
  {
   "property": "C56",
   "status": "proved",
   "theorems": [
    "Verif.Props.C56_scan",
    "Verif.Props.C56_slices"
   ],
   "note": ""
  },
  {
   "property": "C57",
   "status": "proved",
   "theorems": [
    "Verif.Props.C57_advance",
    "Verif.Props.C57_scans",
    "Verif.Props.C57_standard",
    "Verif.Props.C57_unfaithful",
    "Verif.Props.C57_unfaithful_kind"
   ],
   "note": "holds for factories with faithful creators (C57_standard: the standard ones); C57_unfaithful and C57_unfaithful_kind are witnesses that the condition is needed"
  },
  {
   "property": "C58",
   "status": "proved",
   "theorems": [
    "Verif.Props.C58_reported",
    "Verif.Props.C58_drift"
   ],
   "note": "the unconditional claim is false (C58_drift is a witness); C58_reported gives the exact condition"
  },
  {
   "property": "C59",
   "status": "proved",
   "theorems": [
    "Verif.Props.C59_never_none",
    "Verif.Props.C59_end",
    "Verif.Props.C59_fifteen",
    "Verif.Props.C59_if_id",
    "Verif.Props.C59_if_id_iff"
   ],
   "note": ""
  },
  {
   "property": "C60",
   "status": "proved",
   "theorems": [
    "Verif.Props.C60_for_ever",
    "Verif.Props.C60_panics",
    "Verif.Props.C60_forward"
   ],
   "note": "the unconditional claim is false (C60_for_ever, C60_panics); C60_forward is what holds"
  },
  {
   "property": "C61",
   "status": "proved",
   "theorems": [
    "Verif.Props.C61_maps",
    "Verif.Props.C61_overflow"
   ],
   "note": ""
  },
  {
   "property": "C62",
   "status": "proved",
   "theorems": [
    "Verif.Props.C62_unbounded",
    "Verif.Props.C62_half",
    "Verif.Props.C62_returns",
    "Verif.Props.C62_any_factory"
   ],
   "note": "the bounded-stack claim is false; the lower and the upper bound are proved"
  },
  {
   "property": "C63",
   "status": "proved",
   "theorems": [
    "Verif.Props.C63_byte_buffer",
    "Verif.Props.C63_array_buffer",
    "Verif.Props.C63_ilint_buffer",
    "Verif.Props.C63_unbounded_by_data"
   ],
   "note": "the claim of proportional memory is false; witnesses and bounds are proved"
  },
  {
   "property": "C64",
   "status": "proved",
   "theorems": [
    "Verif.Props.C64_watching",
    "Verif.Props.C64_reader_errors",
    "Verif.Props.C64_error"
   ],
   "note": ""
  },
  {
   "property": "C65",
   "status": "proved",
   "theorems": [
    "Verif.Props.C65_only_bytes"
   ],
   "note": ""
  },
  {
   "property": "C66",
   "status": "proved",
   "theorems": [
    "Verif.Props.C66_round_trip",
    "Verif.Props.C66_skip",
    "Verif.Props.C66_skip_u64"
   ],
   "note": ""
  },
  {
   "property": "C67",
   "status": "proved",
   "theorems": [
    "Verif.Props.C67_downcast",
    "Verif.Props.C67_with_id",
    "Verif.Props.C67_id_downcast",
    "Verif.Props.C67_assert",
    "Verif.Props.C67_from_bytes"
   ],
   "note": ""
  },
  {
   "property": "C68",
   "status": "proved",
   "theorems": [
    "Verif.Props.C68_bounded_buffer"
   ],
   "note": ""
  },
  {
   "property": "C69",
   "status": "proved",
   "theorems": [
    "Verif.Props.C69_stops_at_first_error",
    "Verif.Props.C69_any_tag",
    "Verif.Props.C69_every_failure_point"
   ],
   "note": ""
  },
  {
   "property": "C70",
   "status": "proved",
   "theorems": [
    "Verif.Props.C70_count_too_large",
    "Verif.Props.C70_count_stored"
   ],
   "note": ""
  },
  {
   "property": "C71",
   "status": "proved",
   "theorems": [
    "Verif.Props.C71_inherited_methods",
    "Verif.Props.C71_not_all_or_nothing",
    "Verif.Props.C71_any_read",
    "Verif.Props.C71_deserialize"
   ],
   "note": "the documented all-or-nothing of read_all is false for the default method (C71_not_all_or_nothing)"
  },
  {
   "property": "C72",
   "status": "proved",
   "theorems": [
    "Verif.Props.C72_any_write",
    "Verif.Props.C72_serialize",
    "Verif.Props.C72_collects"
   ],
   "note": ""
  },
  {
   "property": "C73",
   "status": "proved",
   "theorems": [
    "Verif.Props.C73_same",
    "Verif.Props.C73_same_toBytes",
    "Verif.Props.C73_exponential",
    "Verif.Props.C73_bound",
    "Verif.Props.C73_exactly"
   ],
   "note": "linear work is false (exponential lower bound); upper bound proved"
  },
  {
   "property": "C74",
   "status": "proved",
   "theorems": [
    "Verif.Props.C74_answers",
    "Verif.Props.C74_history",
    "Verif.Props.C74_dict_bytes",
    "Verif.Props.C74_strDict_bytes",
    "Verif.Props.C74_strDict_read_back",
    "Verif.Props.C74_dict_read_back"
   ],
   "note": ""
  },
  {
   "property": "C75",
   "status": "proved",
   "theorems": [
    "Verif.Props.C75_deserialize_calls",
    "Verif.Props.C75_deserializeInto_calls",
    "Verif.Props.C75_counting_is_transparent",
    "Verif.Props.C75_calls_bounded_by_input",
    "Verif.Props.C75_payload_condition_needed"
   ],
   "note": ""
  },
  {
   "property": "C76",
   "status": "proved",
   "theorems": [
    "Verif.Props.C76_tree",
    "Verif.Props.C76_success_linear",
    "Verif.Props.C76_upper",
    "Verif.Props.C76_amplification"
   ],
   "note": "both bounds and the family that reaches the upper one are proved"
  },
  {
   "property": "C77",
   "status": "proved",
   "theorems": [
    "Verif.Props.C77_sound",
    "Verif.Props.C77_complete",
    "Verif.Props.C77_language",
    "Verif.Props.C77_stream",
    "Verif.Props.C77_one_meaning",
    "Verif.Props.C77_prefix_free",
    "Verif.Props.C77_shortest"
   ],
   "note": ""
  },
  {
   "property": "C78",
   "status": "proved",
   "theorems": [
    "Verif.Props.C78_read_reader",
    "Verif.Props.C78_seek_reader",
    "Verif.Props.C78_seek_reader_position",
    "Verif.Props.C78_skip_seek_fails",
    "Verif.Props.C78_sized_seek_fails"
   ],
   "note": ""
  },
  {
   "property": "C79",
   "status": "proved",
   "theorems": [
    "Verif.Props.C79_knows_less",
    "Verif.Props.C79_accepted",
    "Verif.Props.C79_into",
    "Verif.Props.C79_from_bytes",
    "Verif.Props.C79_same_tags",
    "Verif.Props.C79_strict",
    "Verif.Props.C79_standard",
    "Verif.Props.C79_register"
   ],
   "note": ""
  },
  {
   "property": "C80",
   "status": "proved",
   "theorems": [
    "Verif.Props.C80_write",
    "Verif.Props.C80_read",
    "Verif.Props.C80_round_trip",
    "Verif.Props.C80_truncated"
   ],
   "note": ""
  },
  {
   "property": "C81",
   "status": "proved",
   "theorems": [
    "Verif.Props.C81_new",
    "Verif.Props.C81_with_value",
    "Verif.Props.C81_with_id",
    "Verif.Props.C81_raw",
    "Verif.Props.C81_version",
    "Verif.Props.C81_range",
    "Verif.Props.C81_big_dec",
    "Verif.Props.C81_values",
    "Verif.Props.C81_scalars",
    "Verif.Props.C81_containers"
   ],
   "note": ""
  },
  {
   "property": "C82",
   "status": "proved",
   "theorems": [
    "Verif.Props.C82_limit",
    "Verif.Props.C82_bytes",
    "Verif.Props.C82_factory",
    "Verif.Props.C82_language",
    "Verif.Props.C82_round_trip",
    "Verif.Props.C82_custom",
    "Verif.Props.C82_payload"
   ],
   "note": ""
  },
  {
   "property": "C83",
   "status": "proved",
   "theorems": [
    "Verif.Props.C83_operations",
    "Verif.Props.C83_deserialize",
    "Verif.Props.C83_limit"
   ],
   "note": ""
  },
  {
   "property": "C84",
   "status": "proved",
   "theorems": [
    "Verif.Props.C84_locate",
    "Verif.Props.C84_no_such_child",
    "Verif.Props.C84_read",
    "Verif.Props.C84_standard"
   ],
   "note": ""
  },
  {
   "property": "C85",
   "status": "proved",
   "theorems": [
    "Verif.Props.C85_in_range",
    "Verif.Props.C85_out_of_range",
    "Verif.Props.C85_truncated",
    "Verif.Props.C85_sizes",
    "Verif.Props.C85_capacity"
   ],
   "note": ""
  },
  {
   "property": "C86",
   "status": "proved",
   "theorems": [
    "Verif.Props.C86_read_string",
    "Verif.Props.C86_string_tag",
    "Verif.Props.C86_written",
    "Verif.Props.C86_order",
    "Verif.Props.C86_inner_string",
    "Verif.Props.C86_keys_in_order"
   ],
   "note": ""
  },
  {
   "property": "C87",
   "status": "proved",
   "theorems": [
    "Verif.Props.C87_every_reader",
    "Verif.Props.C87_in_memory",
    "Verif.Props.C87_limited",
    "Verif.Props.C87_default",
    "Verif.Props.C87_std",
    "Verif.Props.C87_seekable",
    "Verif.Props.C87_into_vec",
    "Verif.Props.C87_tag"
   ],
   "note": ""
  },
  {
   "property": "C88",
   "status": "proved",
   "theorems": [
    "Verif.Props.C88_read_reader",
    "Verif.Props.C88_seekable",
    "Verif.Props.C88_failed_read",
    "Verif.Props.C88_deserialize",
    "Verif.Props.C88_skip"
   ],
   "note": ""
  },
  {
   "property": "C89",
   "status": "proved",
   "theorems": [
    "Verif.Props.C89_fixed_destination"
   ],
   "note": ""
  },
  {
   "property": "C90",
   "status": "proved",
   "theorems": [
    "Verif.Props.C90_tag_stays",
    "Verif.Props.C90_error_stays",
    "Verif.Props.C90_final",
    "Verif.Props.C90_not_before",
    "Verif.Props.C90_io_error_may_be_final"
   ],
   "note": ""
  },
  {
   "property": "C91",
   "status": "proved",
   "theorems": [
    "Verif.Props.C91_patch",
    "Verif.Props.C91_standard"
   ],
   "note": ""
  },
  {
   "property": "C92",
   "status": "proved",
   "theorems": [
    "Verif.Props.C92_written",
    "Verif.Props.C92_detected",
    "Verif.Props.C92_compensating"
   ],
   "note": ""
  },
  {
   "property": "C93",
   "status": "proved",
   "theorems": [
    "Verif.Props.C93_cut",
    "Verif.Props.C93_recovery",
    "Verif.Props.C93_end_not_told"
   ],
   "note": ""
  },
  {
   "property": "C94",
   "status": "proved",
   "theorems": [
    "Verif.Props.C94_pieces",
    "Verif.Props.C94_delivers",
    "Verif.Props.C94_stalls"
   ],
   "note": ""
  },
  {
   "property": "C95",
   "status": "proved",
   "theorems": [
    "Verif.Props.C95_log",
    "Verif.Props.C95_never_lost",
    "Verif.Props.C95_must_truncate"
   ],
   "note": ""
  },
  {
   "property": "C96",
   "status": "proved",
   "theorems": [
    "Verif.Props.C96_exact",
    "Verif.Props.C96_accepts",
    "Verif.Props.C96_ends"
   ],
   "note": ""
  },
  {
   "property": "C97",
   "status": "proved",
   "theorems": [
    "Verif.Props.C97_faults",
    "Verif.Props.C97_stream",
    "Verif.Props.C97_retry",
    "Verif.Props.C97_no_retry"
   ],
   "note": ""
  },
  {
   "property": "C98",
   "status": "proved",
   "theorems": [
    "Verif.Props.C98_attempts",
    "Verif.Props.C98_again",
    "Verif.Props.C98_not_appending"
   ],
   "note": ""
  },
  {
   "property": "C99",
   "status": "proved",
   "theorems": [
    "Verif.Props.C99_scan",
    "Verif.Props.C99_lookup",
    "Verif.Props.C99_standard"
   ],
   "note": ""
  },
  {
   "property": "C100",
   "status": "proved",
   "theorems": [
    "Verif.Props.C100_splice",
    "Verif.Props.C100_standard"
   ],
   "note": ""
  },
  {
   "property": "C101",
   "status": "proved",
   "theorems": [
    "Verif.Props.C101_read",
    "Verif.Props.C101_array",
    "Verif.Props.C101_write"
   ],
   "note": ""
  },
  {
   "property": "C102",
   "status": "proved",
   "theorems": [
    "Verif.Props.C102_follow",
    "Verif.Props.C102_catches_up",
    "Verif.Props.C102_must_go_back"
   ],
   "note": ""
  },
  {
   "property": "C103",
   "status": "proved",
   "theorems": [
    "Verif.Props.C103_whole_tags",
    "Verif.Props.C103_calls_mix"
   ],
   "note": ""
  },
  {
   "property": "C104",
   "status": "proved",
   "theorems": [
    "Verif.Props.C104_verdict",
    "Verif.Props.C104_from_bytes",
    "Verif.Props.C104_errors",
    "Verif.Props.C104_modes"
   ],
   "note": ""
  },
  {
   "property": "C105",
   "status": "proved",
   "theorems": [
    "Verif.Props.C105_recognized",
    "Verif.Props.C105_serializations",
    "Verif.Props.C105_injective"
   ],
   "note": ""
  },
  {
   "property": "C106",
   "status": "proved",
   "theorems": [
    "Verif.Props.C106_same_length",
    "Verif.Props.C106_exactly",
    "Verif.Props.C106_replaced",
    "Verif.Props.C106_one_byte",
    "Verif.Props.C106_log",
    "Verif.Props.C106_hidden"
   ],
   "note": ""
  },
  {
   "property": "C107",
   "status": "proved",
   "theorems": [
    "Verif.Props.C107_result",
    "Verif.Props.C107_from_bytes",
    "Verif.Props.C107_reached",
    "Verif.Props.C107_custom"
   ],
   "note": ""
  },
  {
   "property": "C108",
   "status": "proved",
   "theorems": [
    "Verif.Props.C108_fill",
    "Verif.Props.C108_read_back",
    "Verif.Props.C108_leftover"
   ],
   "note": ""
  },
  {
   "property": "C109",
   "status": "proved",
   "theorems": [
    "Verif.Props.C109_types",
    "Verif.Props.C109_from_bytes",
    "Verif.Props.C109_into",
    "Verif.Props.C109_downcast",
    "Verif.Props.C109_registered"
   ],
   "note": ""
  },
  {
   "property": "C110",
   "status": "proved",
   "theorems": [
    "Verif.Props.C110_same",
    "Verif.Props.C110_from_bytes",
    "Verif.Props.C110_to_bytes",
    "Verif.Props.C110_enough",
    "Verif.Props.C110_from_bytes_enough",
    "Verif.Props.C110_round_trip",
    "Verif.Props.C110_sharp"
   ],
   "note": ""
  },
  {
   "property": "C111",
   "status": "proved",
   "theorems": [
    "Verif.Props.C111_release",
    "Verif.Props.C111_same",
    "Verif.Props.C111_size",
    "Verif.Props.C111_serialize",
    "Verif.Props.C111_to_bytes",
    "Verif.Props.C111_honest",
    "Verif.Props.C111_honest_util",
    "Verif.Props.C111_util",
    "Verif.Props.C111_wrapped"
   ],
   "note": ""
  },
  {
   "property": "C112",
   "status": "proved",
   "theorems": [
    "Verif.Props.C112_order",
    "Verif.Props.C112_unsigned",
    "Verif.Props.C112_signed",
    "Verif.Props.C112_signed_ilint",
    "Verif.Props.C112_floats",
    "Verif.Props.C112_text",
    "Verif.Props.C112_range",
    "Verif.Props.C112_version",
    "Verif.Props.C112_records"
   ],
   "note": ""
  },
  {
   "property": "C113",
   "status": "proved",
   "theorems": [
    "Verif.Props.C113_same",
    "Verif.Props.C113_truncated",
    "Verif.Props.C113_accepted",
    "Verif.Props.C113_lasting",
    "Verif.Props.C113_beyond"
   ],
   "note": ""
  },
  {
   "property": "C114",
   "status": "proved",
   "theorems": [
    "Verif.Props.C114_language",
    "Verif.Props.C114_stream",
    "Verif.Props.C114_prefix_free",
    "Verif.Props.C114_standard",
    "Verif.Props.C114_histories",
    "Verif.Props.C114_register",
    "Verif.Props.C114_deregister",
    "Verif.Props.C114_creators"
   ],
   "note": ""
  },
  {
   "property": "C115",
   "status": "proved",
   "theorems": [
    "Verif.Props.C115_relay",
    "Verif.Props.C115_chain",
    "Verif.Props.C115_canonical",
    "Verif.Props.C115_canonical_chain",
    "Verif.Props.C115_standard",
    "Verif.Props.C115_deregister"
   ],
   "note": ""
  },
  {
   "property": "C116",
   "status": "proved",
   "theorems": [
    "Verif.Props.C116_size",
    "Verif.Props.C116_serialize",
    "Verif.Props.C116_to_bytes",
    "Verif.Props.C116_equal",
    "Verif.Props.C116_read",
    "Verif.Props.C116_after_reading",
    "Verif.Props.C116_enough",
    "Verif.Props.C116_read_exactly",
    "Verif.Props.C116_canonical",
    "Verif.Props.C116_clone",
    "Verif.Props.C116_copy",
    "Verif.Props.C116_half",
    "Verif.Props.C116_custom_exactly",
    "Verif.Props.C116_custom_copy",
    "Verif.Props.C116_custom_condition_needed"
   ],
   "note": ""
  },
  {
   "property": "C117",
   "status": "proved",
   "theorems": [
    "Verif.Props.C117_supported",
    "Verif.Props.C117_relay",
    "Verif.Props.C117_chain",
    "Verif.Props.C117_normalise",
    "Verif.Props.C117_exactly",
    "Verif.Props.C117_condition_needed"
   ],
   "note": ""
  },
  {
   "property": "C118",
   "status": "proved",
   "theorems": [
    "Verif.Props.C118_behaves",
    "Verif.Props.C118_kept",
    "Verif.Props.C118_exactly_once",
    "Verif.Props.C118_at_least_once",
    "Verif.Props.C118_twice"
   ],
   "note": ""
  },
  {
   "property": "C119",
   "status": "proved",
   "theorems": [
    "Verif.Props.C119_content",
    "Verif.Props.C119_fixed",
    "Verif.Props.C119_read_back",
    "Verif.Props.C119_tampered",
    "Verif.Props.C119_made",
    "Verif.Props.C119_received"
   ],
   "note": ""
  },
  {
   "property": "C120",
   "status": "proved",
   "theorems": [
    "Verif.Props.C120_same_length",
    "Verif.Props.C120_exactly",
    "Verif.Props.C120_replaced",
    "Verif.Props.C120_one_byte",
    "Verif.Props.C120_condition_needed"
   ],
   "note": ""
  },
  {
   "property": "C121",
   "status": "proved",
   "theorems": [
    "Verif.Props.C121_tampered",
    "Verif.Props.C121_relayed",
    "Verif.Props.C121_relay_check",
    "Verif.Props.C121_canonical_needed"
   ],
   "note": ""
  },
  {
   "property": "C122",
   "status": "proved",
   "theorems": [
    "Verif.Props.C122_one_test",
    "Verif.Props.C122_any_factory",
    "Verif.Props.C122_written_not_read",
    "Verif.Props.C122_shuts_off",
    "Verif.Props.C122_scanner_goes_on"
   ],
   "note": ""
  },
  {
   "property": "C123",
   "status": "proved",
   "theorems": [
    "Verif.Props.C123_code",
    "Verif.Props.C123_reader",
    "Verif.Props.C123_lawful",
    "Verif.Props.C123_exactly",
    "Verif.Props.C123_round_trip",
    "Verif.Props.C123_total",
    "Verif.Props.C123_typed",
    "Verif.Props.C123_normal"
   ],
   "note": ""
  },
  {
   "property": "C124",
   "status": "proved",
   "theorems": [
    "Verif.Props.C124_agree",
    "Verif.Props.C124_noticed",
    "Verif.Props.C124_from_bytes",
    "Verif.Props.C124_written"
   ],
   "note": ""
  },
  {
   "property": "C125",
   "status": "proved",
   "theorems": [
    "Verif.Props.C125_reads",
    "Verif.Props.C125_from_bytes",
    "Verif.Props.C125_writes",
    "Verif.Props.C125_back",
    "Verif.Props.C125_refused"
   ],
   "note": ""
  },
  {
   "property": "C126",
   "status": "proved",
   "theorems": [
    "Verif.Props.C126_agree",
    "Verif.Props.C126_from_bytes",
    "Verif.Props.C126_fleet",
    "Verif.Props.C126_covers"
   ],
   "note": ""
  },
  {
   "property": "C127",
   "status": "proved",
   "theorems": [
    "Verif.Props.C127_no_underflow",
    "Verif.Props.C127_code",
    "Verif.Props.C127_lawful",
    "Verif.Props.C127_exactly",
    "Verif.Props.C127_round_trip",
    "Verif.Props.C127_total",
    "Verif.Props.C127_normal"
   ],
   "note": ""
  },
  {
   "property": "C128",
   "status": "proved",
   "theorems": [
    "Verif.Props.C128_programs",
    "Verif.Props.C128_exactly",
    "Verif.Props.C128_read_back",
    "Verif.Props.C128_maps",
    "Verif.Props.C128_writers",
    "Verif.Props.C128_readers"
   ],
   "note": ""
  },
  {
   "property": "C129",
   "status": "proved",
   "theorems": [
    "Verif.Props.C129_contents",
    "Verif.Props.C129_programs",
    "Verif.Props.C129_creators",
    "Verif.Props.C129_exactly"
   ],
   "note": ""
  },
  {
   "property": "C130",
   "status": "proved",
   "theorems": [
    "Verif.Props.C130_only_bytes",
    "Verif.Props.C130_faults",
    "Verif.Props.C130_first_failure",
    "Verif.Props.C130_nested",
    "Verif.Props.C130_limit",
    "Verif.Props.C130_memory"
   ],
   "note": ""
  },
  {
   "property": "C131",
   "status": "proved",
   "theorems": [
    "Verif.Props.C131_prefix",
    "Verif.Props.C131_watching",
    "Verif.Props.C131_cut",
    "Verif.Props.C131_pipeline"
   ],
   "note": ""
  },
  {
   "property": "C132",
   "status": "proved",
   "theorems": [
    "Verif.Props.C132_follows",
    "Verif.Props.C132_alike",
    "Verif.Props.C132_only_bytes",
    "Verif.Props.C132_stream",
    "Verif.Props.C132_seekable",
    "Verif.Props.C132_release"
   ],
   "note": ""
  },
  {
   "property": "C133",
   "status": "proved",
   "theorems": [
    "Verif.Props.C133_exactly",
    "Verif.Props.C133_memory",
    "Verif.Props.C133_pieces",
    "Verif.Props.C133_builds",
    "Verif.Props.C133_seekable_builds"
   ],
   "note": ""
  },
  {
   "property": "C134",
   "status": "proved",
   "theorems": [
    "Verif.Props.C134_exactly",
    "Verif.Props.C134_memory",
    "Verif.Props.C134_streams",
    "Verif.Props.C134_builds",
    "Verif.Props.C134_seekable_builds"
   ],
   "note": ""
  }
 ]
}