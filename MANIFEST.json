{
 "claims": [
  {
   "property": "C01",
   "status": "proved",
   "theorems": [
    "BCash.C01_varint_roundtrip",
    "BCash.C01_varint_length",
    "BCash.C01_varint_shortest"
   ],
   "note": ""
  },
  {
   "property": "C02",
   "status": "proved",
   "theorems": [
    "BCash.C02_varint_total",
    "BCash.C02_varint_local"
   ],
   "note": ""
  },
  {
   "property": "C03",
   "status": "proved",
   "theorems": [
    "BCash.C03_script_int_roundtrip",
    "BCash.C03_encode_panics_only_at_min"
   ],
   "note": ""
  },
  {
   "property": "C04",
   "status": "partial",
   "theorems": [
    "BCash.C04_decode_value_fails",
    "BCash.C04_decode_value_partial",
    "BCash.C04_decode_le4"
   ],
   "note": "False of the code for 5-byte operands (C04_decode_value_fails: bits are shifted out silently); proved for at most 4 bytes and the exact behaviour is characterised."
  },
  {
   "property": "C05",
   "status": "proved",
   "theorems": [
    "BCash.C05_encode_minimally",
    "BCash.C05_minimal_unique",
    "BCash.C05_bool"
   ],
   "note": ""
  },
  {
   "property": "C06",
   "status": "partial",
   "theorems": [
    "BCash.C06_num2bin_partial",
    "BCash.C06_num2bin_fails"
   ],
   "note": "Proved for widths below 2^28; from 2^28 bytes on the code panics (C06_num2bin_fails)."
  },
  {
   "property": "C07",
   "status": "proved",
   "theorems": [
    "BCash.C07_arith_exact",
    "BCash.C07_neg_exact",
    "BCash.C07_expr_exact"
   ],
   "note": ""
  },
  {
   "property": "C08",
   "status": "proved",
   "theorems": [
    "BCash.C08_first_error",
    "BCash.C08_error_compare"
   ],
   "note": ""
  },
  {
   "property": "C09",
   "status": "proved",
   "theorems": [
    "BCash.C09_obtainable_valid",
    "BCash.C09_new_iff"
   ],
   "note": ""
  },
  {
   "property": "C10",
   "status": "proved",
   "theorems": [
    "BCash.C10_concat_split_bytes",
    "BCash.C10_from_parts_bytes"
   ],
   "note": ""
  },
  {
   "property": "C11",
   "status": "proved",
   "theorems": [
    "BCash.C11_split_concat"
   ],
   "note": ""
  },
  {
   "property": "C12",
   "status": "proved",
   "theorems": [
    "BCash.C12_preimages_consistent",
    "BCash.C12_signature_split_fails"
   ],
   "note": "Proved for wrapping, naming, concatenating, hashing, splitting; false for arrays recorded as signatures (C12_signature_split_fails), which the property does not include."
  },
  {
   "property": "C13",
   "status": "proved",
   "theorems": [
    "BCash.C13_equality",
    "BCash.C13_congruence",
    "BCash.C13_serialise_congruence"
   ],
   "note": ""
  },
  {
   "property": "C14",
   "status": "proved",
   "theorems": [
    "BCash.C14_roundtrip",
    "BCash.C14_wire_format",
    "BCash.C14_preimage_wire_format",
    "BCash.C14_format",
    "BCash.C14_numbers"
   ],
   "note": ""
  },
  {
   "property": "C15",
   "status": "proved",
   "theorems": [
    "BCash.C15_whole_buffer"
   ],
   "note": ""
  },
  {
   "property": "C16",
   "status": "proved",
   "theorems": [
    "BCash.C16_consumes_prefix"
   ],
   "note": ""
  },
  {
   "property": "C17",
   "status": "proved",
   "theorems": [
    "BCash.C17_unambiguous"
   ],
   "note": ""
  },
  {
   "property": "C18",
   "status": "proved",
   "theorems": [
    "BCash.C18_ops_roundtrip",
    "BCash.C18_illformed_ops_fails"
   ],
   "note": "Proved for well-formed operations; C18_illformed_ops_fails shows what happens for a bare PUSHDATA opcode or an 'invalid' byte that is defined."
  },
  {
   "property": "C19",
   "status": "partial",
   "theorems": [
    "BCash.C19_reserialise_fails",
    "BCash.C19_reserialise_partial"
   ],
   "note": "False for pushes with a longer prefix than needed (C19_reserialise_fails); proved exactly on the scripts whose pushes use the shortest length prefix (iff)."
  },
  {
   "property": "C20",
   "status": "proved",
   "theorems": [
    "BCash.C20_minimal_push"
   ],
   "note": ""
  },
  {
   "property": "C21",
   "status": "proved",
   "theorems": [
    "BCash.C21_slice_parser_total",
    "BCash.C21_parsers_agree"
   ],
   "note": ""
  },
  {
   "property": "C22",
   "status": "proved",
   "theorems": [
    "BCash.C22_opcode_byte_bijection",
    "BCash.C22_consensus_bytes",
    "BCash.C22_every_byte"
   ],
   "note": ""
  },
  {
   "property": "C23",
   "status": "proved",
   "theorems": [
    "BCash.C23_preimage_spec",
    "BCash.C23_transaction",
    "BCash.C23_unknown_input_panics"
   ],
   "note": ""
  },
  {
   "property": "C24",
   "status": "proved",
   "theorems": [
    "BCash.C24_anyonecanpay_free",
    "BCash.C24_none_free",
    "BCash.C24_single_free",
    "BCash.C24_all_outputs_protected",
    "BCash.C24_outpoints_protected",
    "BCash.C24_sequences_protected",
    "BCash.C24_single_output_protected",
    "BCash.C24_own_input_protected",
    "BCash.C24_default_protects_all"
   ],
   "note": ""
  },
  {
   "property": "C25",
   "status": "partial",
   "theorems": [
    "BCash.C25_script_code_first",
    "BCash.C25_explicit_index_fails",
    "BCash.C25_explicit_index_partial"
   ],
   "note": "First separator: proved. Explicit index: the code keeps the separator itself (C25_explicit_index_fails); exact behaviour proved."
  },
  {
   "property": "C26",
   "status": "proved",
   "theorems": [
    "BCash.C26_recognises",
    "BCash.C26_recognises_bytes",
    "BCash.C26_only_shapes",
    "BCash.C26_address"
   ],
   "note": ""
  },
  {
   "property": "C27",
   "status": "partial",
   "theorems": [
    "BCash.C27_no_panic_fails",
    "BCash.C27_panic_iff_partial"
   ],
   "note": "False of the code: a P2SH/P2PKH-shaped script whose push is not 20 bytes makes classification panic (C27_no_panic_fails); C27_panic_iff_partial characterises the panics exactly."
  },
  {
   "property": "C28",
   "status": "proved",
   "theorems": [
    "BCash.C28_roundtrip",
    "BCash.C28_case_and_default_prefix"
   ],
   "note": ""
  },
  {
   "property": "C29",
   "status": "proved",
   "theorems": [
    "BCash.C29_burst",
    "BCash.C29_alphabet",
    "BCash.C29_substitutions",
    "BCash.C29_typing_errors",
    "BCash.C29_six_letters",
    "BCash.C29_network"
   ],
   "note": ""
  },
  {
   "property": "C30",
   "status": "partial",
   "theorems": [
    "BCash.C30_no_panic_fails",
    "BCash.C30_panic_iff_partial",
    "BCash.C30_covers"
   ],
   "note": "False of the code (C30_no_panic_fails: byte string that is too short or non-alphabet); C30_panic_iff_partial characterises the panicking inputs exactly."
  },
  {
   "property": "C31",
   "status": "partial",
   "theorems": [
    "BCash.C31_canonical_fails_padding",
    "BCash.C31_canonical_fails_length",
    "BCash.C31_canonical_partial",
    "BCash.C31_unique_partial"
   ],
   "note": "False of the code: nonzero padding and over-long payloads are accepted (C31_canonical_fails_padding, C31_canonical_fails_length); uniqueness holds for canonical length and padding."
  },
  {
   "property": "C32",
   "status": "proved",
   "theorems": [
    "BCash.C32_conservation",
    "BCash.C32_insufficient"
   ],
   "note": ""
  },
  {
   "property": "C33",
   "status": "proved",
   "theorems": [
    "BCash.C33_bounds"
   ],
   "note": ""
  },
  {
   "property": "C34",
   "status": "partial",
   "theorems": [
    "BCash.C34_fee_paid_partial",
    "BCash.C34_fee_fails"
   ],
   "note": "Holds whenever a leftover output is included; false otherwise (C34_fee_fails: no fee is required if no leftover output is included)."
  },
  {
   "property": "C35",
   "status": "proved",
   "theorems": [
    "BCash.C35_order",
    "BCash.C35_no_leftovers",
    "BCash.C35_without_estimation_err"
   ],
   "note": ""
  },
  {
   "property": "C36",
   "status": "proved",
   "theorems": [
    "BCash.C36_single_leftover"
   ],
   "note": ""
  },
  {
   "property": "C37",
   "status": "proved",
   "theorems": [
    "BCash.C37_estimate",
    "BCash.C37_exact",
    "BCash.C37_upper_bound",
    "BCash.C37_p2pkh",
    "BCash.C37_value_dependent_fails"
   ],
   "note": "C37_value_dependent_fails shows that the condition on signatories is needed for equality."
  },
  {
   "property": "C38",
   "status": "proved",
   "theorems": [
    "BCash.C38_order_irrelevant"
   ],
   "note": ""
  },
  {
   "property": "C39",
   "status": "proved",
   "theorems": [
    "BCash.C39_already_signed",
    "BCash.C39_one_input",
    "BCash.C39_signed_once",
    "BCash.C39_signed_by_call"
   ],
   "note": ""
  },
  {
   "property": "C40",
   "status": "proved",
   "theorems": [
    "BCash.C40_complete",
    "BCash.C40_reference",
    "BCash.C40_export_unsigned"
   ],
   "note": ""
  },
  {
   "property": "C41",
   "status": "proved",
   "theorems": [
    "BCash.C41_rebuild"
   ],
   "note": ""
  },
  {
   "property": "C42",
   "status": "proved",
   "theorems": [
    "BCash.C42_base64",
    "BCash.C42_base64_read",
    "BCash.C42_entry_roundtrip",
    "BCash.C42_roundtrip",
    "BCash.C42_roundtrip_base64"
   ],
   "note": "The text layer is C94; the hand-written form of table entries is C42_entry_roundtrip. Base64 is a parameter in C42_roundtrip and RFC 4648 base64 in C42_roundtrip_base64."
  },
  {
   "property": "C43",
   "status": "partial",
   "theorems": [
    "BCash.C43_accepts",
    "BCash.C43_errors",
    "BCash.C43_panics",
    "BCash.C43_depth",
    "BCash.C43_endless",
    "BCash.C43_exact_partial",
    "BCash.C43_index_fails",
    "BCash.C43_cycle_fails",
    "BCash.C43_acyclic_partial"
   ],
   "note": "False of the code: an out-of-range byte array index panics (C43_index_fails) and a cyclic preimage index recurses without end (C43_cycle_fails). Everything else is exact: accepted documents and their transactions (C43_accepts, iff), every error names a real fault (C43_errors), panics and endless recursion only through missing or cyclic entries (C43_panics, C43_endless), and for documents with nothing else wrong exactly then (C43_exact_partial); depth bounded by the table (C43_depth)."
  },
  {
   "property": "C44",
   "status": "proved",
   "theorems": [
    "BCash.C44_into_unhashed_tx",
    "BCash.C44_send_output",
    "BCash.C44_genesis_output",
    "BCash.C44_names",
    "BCash.C44_token_bytes",
    "BCash.C44_token_id"
   ],
   "note": "GENESIS and SEND scripts parse to the supplied data exactly when the SLP specification allows the parameters (1 to 19 amounts; document hash of 0 or 32 bytes, decimals at most 9, mint baton at least 2, NFT1 child restrictions); otherwise the script built is not a valid SLP message (the library does not reject such parameters)."
  },
  {
   "property": "C45",
   "status": "partial",
   "theorems": [
    "BCash.C45_shuffle_partial",
    "BCash.C45_depth_fails"
   ],
   "note": "Proved for every opcode with a recorded output order except OP_DEPTH, whose order names an input it does not have (C45_depth_fails)."
  },
  {
   "property": "C46",
   "status": "partial",
   "theorems": [
    "BCash.C46_structure_partial",
    "BCash.C46_blocks",
    "BCash.C46_accepts_iff_balanced",
    "BCash.C46_no_loss",
    "BCash.C46_written_unique",
    "BCash.C46_nested_fails",
    "BCash.C46_nested_else_fails",
    "BCash.C46_double_else_fails"
   ],
   "note": "Proved for all nestings when branches are written as blocks (C46_blocks); without blocks false for nested conditionals (C46_nested_fails, C46_nested_else_fails) and repeated OP_ELSE (C46_double_else_fails), proved for simple nesting. Rejection of unbalanced conditionals and preservation of all statements other than OP_ELSE are proved unconditionally."
  },
  {
   "property": "C47",
   "status": "partial",
   "theorems": [
    "BCash.C47_holds_iff_sat",
    "BCash.C47_holds_iff_possible",
    "BCash.C47_no_variants",
    "BCash.C47_contradiction_fails",
    "BCash.C47_parse_iff_partial",
    "BCash.C47_nonascii_fails"
   ],
   "note": "Meaning of conditions proved; parsing is exact except that a plain name starting with a non-ASCII letter panics (C47_nonascii_fails)."
  },
  {
   "property": "C48",
   "status": "proved",
   "theorems": [
    "BCash.C48_construct_of_read",
    "BCash.C48_read_of_construct",
    "BCash.C48_hex"
   ],
   "note": ""
  },
  {
   "property": "C49",
   "status": "proved",
   "theorems": [
    "BCash.C49_bip68"
   ],
   "note": ""
  },
  {
   "property": "C50",
   "status": "partial",
   "theorems": [
    "BCash.C50_decode_terminates",
    "BCash.C50_stream_roundtrip_partial",
    "BCash.C50_empty_stream_fails",
    "BCash.C50_zero_size_diverges"
   ],
   "note": "False for the empty list (C50_empty_stream_fails: the decoder always reads one value) and diverges for types of zero size (C50_zero_size_diverges); proved for all other streams."
  },
  {
   "property": "C51",
   "status": "proved",
   "theorems": [
    "BCash.C51_spend_roundtrip",
    "BCash.C51_spend_roundtrip_bytes",
    "BCash.C51_undeclared_flags"
   ],
   "note": ""
  },
  {
   "property": "C52",
   "status": "partial",
   "theorems": [
    "BCash.C52_vec_count_fails",
    "BCash.C52_no_panic_partial",
    "BCash.C52_tx_panic_iff_partial",
    "BCash.C52_panic_iff_partial"
   ],
   "note": "False: a vector count whose byte size exceeds the capacity limit panics (C52_vec_count_fails); C52_panic_iff_partial gives the exact set of panicking inputs for every type."
  },
  {
   "property": "C53",
   "status": "partial",
   "theorems": [
    "BCash.C53_pubkey_slices",
    "BCash.C53_json_roundtrip",
    "BCash.C53_pubkey_length_checked",
    "BCash.C53_hash_length_fails",
    "BCash.C53_hash_length_partial"
   ],
   "note": "Round trip proved; public keys check the length; hashes of the wrong length panic (C53_hash_length_fails), exact behaviour in C53_hash_length_partial. Public keys from exactly 33 bytes: C53_pubkey_slices."
  },
  {
   "property": "C54",
   "status": "proved",
   "theorems": [
    "BCash.C54_conforms",
    "BCash.C54_total"
   ],
   "note": ""
  },
  {
   "property": "C55",
   "status": "proved",
   "theorems": [
    "BCash.C55_to_integer"
   ],
   "note": ""
  },
  {
   "property": "C56",
   "status": "proved",
   "theorems": [
    "BCash.C56_greedy"
   ],
   "note": ""
  },
  {
   "property": "C57",
   "status": "partial",
   "theorems": [
    "BCash.C57_stack_effect_partial",
    "BCash.C57_notif_fails",
    "BCash.C57_roll_fails",
    "BCash.C57_roles_partial",
    "BCash.C57_roles_fails",
    "BCash.C57_roles_meaning",
    "BCash.C57_retains_input",
    "BCash.C57_disabled"
   ],
   "note": "False for OP_NOTIF (no input recorded), OP_ROLL (takes two items, one recorded) and the role list of OP_CHECKSIGVERIFY; proved for all other opcodes on every stack."
  },
  {
   "property": "C58",
   "status": "proved",
   "theorems": [
    "BCash.C58_pushes"
   ],
   "note": ""
  },
  {
   "property": "C59",
   "status": "proved",
   "theorems": [
    "BCash.C59_p2pkh",
    "BCash.C59_p2sh"
   ],
   "note": ""
  },
  {
   "property": "C60",
   "status": "partial",
   "theorems": [
    "BCash.C60_fields_partial",
    "BCash.C60_unstable_fails",
    "BCash.C60_names_partial",
    "BCash.C60_balanced_partial",
    "BCash.C60_without_variants_partial",
    "BCash.C60_pick_fails",
    "BCash.C60_offset_pick_fails",
    "BCash.C60_size_fails",
    "BCash.C60_size_placeholder_fails",
    "BCash.C60_depth_names_fails",
    "BCash.C60_reserved_fails",
    "BCash.C60_toalt_fails",
    "BCash.C60_conditional_fails",
    "BCash.C60_disallowed_fails"
   ],
   "note": "Proved for scripts that keep to declOk/progOk and for runs that take only branches the variant condition allows, where a conditional whose branches are both allowed must leave the same names (for balanced scripts without variants: all runs, C60_without_variants_partial; with variants: all field values that make the condition of their variant true, if the names in conditions are given to nothing else, C60_fields_partial); false without (10 C60_*_fails theorems: dynamic OP_PICK depth, offset before OP_PICK, OP_SIZE names, depth_of with two names, reserved names, renaming on the alt stack, branches leaving different names, disallowed branch, reused name of a condition)."
  },
  {
   "property": "C61",
   "status": "proved",
   "theorems": [
    "BCash.C61_fields",
    "BCash.C61_inputs",
    "BCash.C61_empty_list_fails",
    "BCash.C61_spend",
    "BCash.C61_without_variants"
   ],
   "note": "Under declOk (each input names every variant at most once, lists only in scripts with variants); C61_empty_list_fails shows the latter is needed. C61_spend inherits the hypotheses of C60. C61_without_variants: for all field values if branches leave the same names. C61_fields: with variants, for all field values that make the condition true."
  },
  {
   "property": "C62",
   "status": "proved",
   "theorems": [
    "BCash.C62_statements"
   ],
   "note": ""
  },
  {
   "property": "C63",
   "status": "proved",
   "theorems": [
    "BCash.C63_other_script_codes",
    "BCash.C63_preimages_are_checked",
    "BCash.C63_p2pkh",
    "BCash.C63_p2sh",
    "BCash.C63_p2pkh_own_key",
    "BCash.C63_p2sh_own_script"
   ],
   "note": "Hash functions and signature verification are parameters. The script code is the script after its first OP_CODESEPARATOR (C25); limits on script size, element size and operation count are not part of the specification of spending."
  },
  {
   "property": "C64",
   "status": "proved",
   "theorems": [
    "BCash.C64_p2pkh_source",
    "BCash.C64_p2pkh_checked",
    "BCash.C64_p2sh_source"
   ],
   "note": ""
  },
  {
   "property": "C65",
   "status": "partial",
   "theorems": [
    "BCash.C65_bitwise_exact",
    "BCash.C65_bitwise_defined",
    "BCash.C65_shr_exact",
    "BCash.C65_shl_fails",
    "BCash.C65_shl_partial"
   ],
   "note": "Proved for AND, OR, XOR and right shift. False of the code for left shifts (C65_shl_fails: bits shifted out are lost silently); C65_shl_partial characterises left shifts exactly."
  },
  {
   "property": "C66",
   "status": "partial",
   "theorems": [
    "BCash.C66_types_sound",
    "BCash.C66_alt_stack",
    "BCash.C66_progress",
    "BCash.C66_range_fails",
    "BCash.C66_tables_agree",
    "BCash.C66_coverage",
    "BCash.C66_general",
    "BCash.C66_push",
    "BCash.C66_stack_item"
   ],
   "note": "Soundness and progress are proved for every opcode with a typed function. OP_NOTIF is accepted by the macro but has no typed function (C66_coverage), so generated code using it does not compile; integers are only checked by type, so a sum of five bytes still fails at its next use (C66_range_fails). C66_general: no needless type errors."
  },
  {
   "property": "C67",
   "status": "partial",
   "theorems": [
    "BCash.C67_fields_partial",
    "BCash.C67_recorded_partial",
    "BCash.C67_size_fails",
    "BCash.C67_toalt_fails"
   ],
   "note": "Proved under the restrictions of C60 (declOk, progOk, branches allowed and balanced); false without: OP_SIZE without output names records the name of the item for its size, and renaming an unnamed item by OP_TOALTSTACK records nothing (C67_*_fails). C67_fields_partial: with variants, for all field values that make the condition true."
  },
  {
   "property": "C68",
   "status": "partial",
   "theorems": [
    "BCash.C68_accepted_partial",
    "BCash.C68_notif_fails",
    "BCash.C68_names_fails",
    "BCash.C68_unreached_fails",
    "BCash.C68_contradiction_fails",
    "BCash.C68_depth_fails",
    "BCash.C68_ifdup_fails",
    "BCash.C68_placeholder_fails"
   ],
   "note": "Proved for scripts with conditionals and variants: if for every variant and every allowed sequence of branches there is a run with right names, and these runs agree about the names each statement finds, the macro accepts. Restrictions: progOk (C60), acceptableProg, no contradictory conditions, every statement reached, size bound; the C68_*_fails theorems show that the macro rejects or panics without them."
  },
  {
   "property": "C69",
   "status": "partial",
   "theorems": [
    "BCash.C69_fields_partial",
    "BCash.C69_typed_partial",
    "BCash.C69_balanced_partial",
    "BCash.C69_plain_partial",
    "BCash.C69_without_variants_partial",
    "BCash.C69_shadow_fails",
    "BCash.C69_variants_fails",
    "BCash.C69_branches_fails",
    "BCash.C69_calls"
   ],
   "note": "Proved under the restrictions of C60 plus: no two variables of one name differ in type and operands have one type in all variants, and no first branch is taken where the condition also allows the second (C69_typed_partial); for scripts without variants and transmute both follow from all inputs and named pushes having different names (C69_plain_partial); through conditionals whose branches leave the same names and the same types the last restriction is not needed (C69_balanced_partial), so without variants and transmute every execution is typed when branches are balanced (C69_without_variants_partial); with variants for all field values that make the condition of their variant true (C69_fields_partial). False without: shadowed names, and operands with different types in different variants, where acceptance depends on the hash order, and branches leaving items of different types (C69_*_fails)."
  },
  {
   "property": "C70",
   "status": "partial",
   "theorems": [
    "BCash.C70_kind",
    "BCash.C70_human_parsed",
    "BCash.C70_human_built_partial",
    "BCash.C70_binary",
    "BCash.C70_binary_total",
    "BCash.C70_with_prefix",
    "BCash.C70_human_fails",
    "BCash.C70_binary_fails"
   ],
   "note": "Text form proved for parsed addresses and for built ones whose prefix is lower-case without colon; false otherwise (C70_human_fails). The binary form replaces a non-canonical (upper-case) string by the canonical one and loses a prefix kind that does not belong to the prefix (C70_binary_fails)."
  },
  {
   "property": "C71",
   "status": "partial",
   "theorems": [
    "BCash.C71_contract_partial",
    "BCash.C71_without_separators",
    "BCash.C71_obeying",
    "BCash.C71_decided",
    "BCash.C71_without_variants_partial",
    "BCash.C71_balanced_partial",
    "BCash.C71_fields_partial"
   ],
   "note": "Proved under the restrictions of C60 (declOk, progOk, branches allowed and balanced), for scripts with any number of OP_CODESEPARATORs anywhere (execScript: signatures are checked against what follows the last executed one; C71_without_separators: this is the execution of C60 if there is none). C71_without_variants_partial: without variants, every spend of a script whose conditionals leave the same names on both branches is covered (C71_decided: no run is undecided, which discharges the same hypothesis of C85, C96 and C100 as well). With variants, C71_balanced_partial covers every spend that takes only branches allowed by the condition of its variant (ObeysScript) when branches the condition allows both leave the same names (C71_obeying), in particular every spend whose field values make the condition true if its names are given to nothing else (C71_fields_partial)."
  },
  {
   "property": "C72",
   "status": "proved",
   "theorems": [
    "BCash.C72_names",
    "BCash.C72_function",
    "BCash.C72_concat",
    "BCash.C72_from_parts",
    "BCash.C72_split",
    "BCash.C72_whole_name_fails"
   ],
   "note": "The name of a whole array is not a piece and does not survive further concatenation or splitting (C72_whole_name_fails). Arrays recorded as signatures, which C12_signature_split_fails shows to be split wrongly, are not among the arrays of C72_split."
  },
  {
   "property": "C73",
   "status": "proved",
   "theorems": [
    "BCash.C73_written",
    "BCash.C73_read_back",
    "BCash.C73_arrays",
    "BCash.C73_whole_name_fails"
   ],
   "note": "Arrays may contain signatures and other function results; they are found again uncut. The name of a pushed array as a whole is found on its only part, not on the array read back (C73_whole_name_fails); empty parts may be lost."
  },
  {
   "property": "C74",
   "status": "proved",
   "theorems": [
    "BCash.C74_writing",
    "BCash.C74_reading",
    "BCash.C74_contents"
   ],
   "note": "For every type of the universe CodeTy; the transaction types are structs of it and are also linked to the contents-level codecs directly (C74_contents)."
  },
  {
   "property": "C75",
   "status": "proved",
   "theorems": [
    "BCash.C75_written",
    "BCash.C75_read_back",
    "BCash.C75_read_back_alone",
    "BCash.C75_transaction",
    "BCash.C75_arrays",
    "BCash.C75_hash_alone_fails"
   ],
   "note": "The exception in the statement (a hash read back alone) is C75_hash_alone_fails. Empty pieces are not tracked."
  },
  {
   "property": "C76",
   "status": "proved",
   "theorems": [
    "BCash.C76_digest",
    "BCash.C76_used",
    "BCash.C76_transaction_id",
    "BCash.C76_transaction_contents"
   ],
   "note": "Hash functions are parameters with the right output lengths."
  },
  {
   "property": "C77",
   "status": "proved",
   "theorems": [
    "BCash.C77_contents",
    "BCash.C77_transaction",
    "BCash.C77_explains",
    "BCash.C77_written"
   ],
   "note": "The names outpoint_i and output_i given in the code do not survive concatenation (the parts are flattened), so they are not part of the statement; the names sequence_i do."
  },
  {
   "property": "C78",
   "status": "proved",
   "theorems": [
    "BCash.C78_new",
    "BCash.C78_calls",
    "BCash.C78_placeholder",
    "BCash.C78_into_builder"
   ],
   "note": "The builder's signatories are arbitrary (a build function and placeholder signatures)."
  },
  {
   "property": "C79",
   "status": "proved",
   "theorems": [
    "BCash.C79_hash",
    "BCash.C79_arrays",
    "BCash.C79_operations",
    "BCash.C79_transactions",
    "BCash.C79_serialise",
    "BCash.C79_serialise_fails"
   ],
   "note": "That the minimality mark matters for serialisation although it does not for equality is C79_serialise_fails."
  },
  {
   "property": "C80",
   "status": "partial",
   "theorems": [
    "BCash.C80_stored_partial",
    "BCash.C80_binary_fails",
    "BCash.C80_layout",
    "BCash.C80_arrangement"
   ],
   "note": "False for ByteArray and Tx in self-describing binary formats (C80_binary_fails); proved for all types in human-readable formats and formats that read byte strings from sequences, and for all other types in all formats."
  },
  {
   "property": "C81",
   "status": "partial",
   "theorems": [
    "BCash.C81_hashed",
    "BCash.C81_stored_partial",
    "BCash.C81_deser_fails",
    "BCash.C81_read_fails"
   ],
   "note": "False for objects read from their consensus serialisation (C81_deser_fails) and for documents with another hash or bytes (C81_read_fails); proved for hashing and for storing and reading back."
  },
  {
   "property": "C82",
   "status": "partial",
   "theorems": [
    "BCash.C82_panics_partial",
    "BCash.C82_without_hash",
    "BCash.C82_fails"
   ],
   "note": "False for hash texts that are hex of a wrong length (C82_fails); proved that nothing else panics."
  },
  {
   "property": "C83",
   "status": "partial",
   "theorems": [
    "BCash.C83_types",
    "BCash.C83_convert",
    "BCash.C83_small",
    "BCash.C83_mixed_arith",
    "BCash.C83_mixed_bitwise",
    "BCash.C83_mixed_error",
    "BCash.C83_equal",
    "BCash.C83_order_fails",
    "BCash.C83_order_partial",
    "BCash.C83_text"
   ],
   "note": "Order with a machine integer outside the script range is false of the code (C83_order_fails); C83_order_partial gives the exact behaviour. Everything else is proved in full."
  },
  {
   "property": "C84",
   "status": "partial",
   "theorems": [
    "BCash.C84_sign_verify",
    "BCash.C84_sign_errors",
    "BCash.C84_verify",
    "BCash.C84_normalize",
    "BCash.C84_backends_partial",
    "BCash.C84_key_error_fails",
    "BCash.C84_backends_fails",
    "BCash.C84_spend"
   ],
   "note": "The foreign crates are parameters; the laws assumed of them are the structure Spec.Ecdsa, met by toyEcdsa. Agreement of the two implementations is false for uncompressed public keys (C84_backends_fails), and the error for a 32-byte non-key is misleading (C84_key_error_fails); everything else is proved in full."
  },
  {
   "property": "C85",
   "status": "partial",
   "theorems": [
    "BCash.C85_fields_partial",
    "BCash.C85_signed_is_checked_partial",
    "BCash.C85_every_check_partial",
    "BCash.C85_without_variants_partial",
    "BCash.C85_other_separators_fails"
   ],
   "note": "Proved under the restrictions of C71 for scripts whose signature checks all come after their only separator (or that have none). FALSE otherwise: the preimage handed out always has the code after the first separator of the script, whatever is executed (C85_other_separators_fails: check before the separator, second separator, separator in a branch not taken). For scripts with separators and checks anywhere, C85_every_check_partial says exactly what each check is against and how the preimage handed out has to be changed for it. Without variants every spend is covered when branches leave the same names (C85_without_variants_partial). With variants: for all field values that make the condition of their variant true, if branches leave the same names and the names in conditions are given to nothing else (C85_fields_partial)."
  },
  {
   "property": "C86",
   "status": "partial",
   "theorems": [
    "BCash.C86_arguments",
    "BCash.C86_arguments_errors_partial",
    "BCash.C86_arguments_panic_fails",
    "BCash.C86_inputs",
    "BCash.C86_variants_partial",
    "BCash.C86_variants_fails",
    "BCash.C86_docs",
    "BCash.C86_docs_none",
    "BCash.C86_docs_total"
   ],
   "note": "Accepted arguments and parameters are characterised exactly (iff); documentation is described for texts in sections and without heading. False in three ways: repeated or bare variant attributes (C86_variants_fails) and panics (C86_arguments_panic_fails). syn's parsing of tokens into syntax trees is not modelled."
  },
  {
   "property": "C87",
   "status": "partial",
   "theorems": [
    "BCash.C87_reads",
    "BCash.C87_unambiguous",
    "BCash.C87_blocks",
    "BCash.C87_no_rust",
    "BCash.C87_variable_fails"
   ],
   "note": "Accepted bodies are characterised exactly. False: a variable is never a value (C87_variable_fails). The value an expression pushes is part of the syntax tree (it is computed by compiled user code)."
  },
  {
   "property": "C88",
   "status": "partial",
   "theorems": [
    "BCash.C88_fields_partial",
    "BCash.C88_accepted_reads",
    "BCash.C88_generates",
    "BCash.C88_spend_partial",
    "BCash.C88_without_variants_partial",
    "BCash.C88_accepted_partial"
   ],
   "note": "Under the restrictions of C60 and C68; branches of conditionals written as blocks (see C46 for other ways of writing them). C88_without_variants_partial: for all field values if branches leave the same names. With variants: for all field values that make the condition of their variant true, if branches leave the same names and the names in conditions are given to nothing else (C88_fields_partial)."
  },
  {
   "property": "C89",
   "status": "partial",
   "theorems": [
    "BCash.C89_debug",
    "BCash.C89_same",
    "BCash.C89_encode",
    "BCash.C89_operands",
    "BCash.C89_build_partial",
    "BCash.C89_build_fails",
    "BCash.C89_fee_fails",
    "BCash.C89_num2bin_fails",
    "BCash.C89_decode_fails",
    "BCash.C89_release_build",
    "BCash.C89_release_width"
   ],
   "note": "FALSE of the code for amounts, fee products and widths that overflow: C89_build_fails, C89_fee_fails, C89_num2bin_fails, C89_decode_fails. Proved for everything that does not overflow. What a release build does in all cases is C89_release_build (sums and fee modulo 2^64) and C89_release_width."
  },
  {
   "property": "C90",
   "status": "proved",
   "theorems": [
    "BCash.C90_texts",
    "BCash.C90_blocks",
    "BCash.C90_independent",
    "BCash.C90_formatter"
   ],
   "note": ""
  },
  {
   "property": "C91",
   "status": "partial",
   "theorems": [
    "BCash.C91_words",
    "BCash.C91_values",
    "BCash.C91_text_fails",
    "BCash.C91_text_partial",
    "BCash.C91_equal",
    "BCash.C91_bytes_fails",
    "BCash.C91_bytes_partial",
    "BCash.C91_debug"
   ],
   "note": "False for undefined bytes built by hand (C91_text_fails) and for byte strings with longer length prefixes (C91_bytes_fails); proved for the rest. Names of opcodes come from the derived Debug and strum implementations."
  },
  {
   "property": "C92",
   "status": "partial",
   "theorems": [
    "BCash.C92_accepted",
    "BCash.C92_unique",
    "BCash.C92_rewrite_partial",
    "BCash.C92_txid_partial",
    "BCash.C92_txid_fails",
    "BCash.C92_stable"
   ],
   "note": "False for transactions with longer size forms or push prefixes (C92_txid_fails); everything else, including the exact set on which it holds, is proved."
  },
  {
   "property": "C93",
   "status": "partial",
   "theorems": [
    "BCash.C93_strings",
    "BCash.C93_data",
    "BCash.C93_entries",
    "BCash.C93_import_fails"
   ],
   "note": "Export proved in full; the bound on imports is false (C93_import_fails)."
  },
  {
   "property": "C94",
   "status": "partial",
   "theorems": [
    "BCash.C94_indices",
    "BCash.C94_export",
    "BCash.C94_unambiguous",
    "BCash.C94_import",
    "BCash.C94_rejects",
    "BCash.C94_accepts",
    "BCash.C94_crashes_partial",
    "BCash.C94_roundtrip",
    "BCash.C94_roundtrip_base64",
    "BCash.C94_dangling_fails",
    "BCash.C94_stored",
    "BCash.C94_formatting"
   ],
   "note": "Everything proved in full except freedom from crashes, which is false for texts with dangling or cyclic indices (C94_dangling_fails); crashes come from nothing else (C94_crashes_partial). serde_json is transcribed."
  },
  {
   "property": "C95",
   "status": "partial",
   "theorems": [
    "BCash.C95_accepted",
    "BCash.C95_otherwise",
    "BCash.C95_bad_crate_panics",
    "BCash.C95_implemented",
    "BCash.C95_written",
    "BCash.C95_read",
    "BCash.C95_read_errors",
    "BCash.C95_round_trip",
    "BCash.C95_canonical",
    "BCash.C95_documented_field_fails",
    "BCash.C95_data_field_fails",
    "BCash.C95_generic_fails",
    "BCash.C95_crate_path_panics",
    "BCash.C95_other_skip_fails",
    "BCash.C95_library"
   ],
   "note": "Exact for accepted structs: which ones are accepted and implemented, what is written and read, round trip, canonical reading, the library's own structs. False for documented fields, fields called data, generics, crate paths and `skip` of other macros (C95_documented_field_fails, C95_data_field_fails, C95_generic_fails, C95_crate_path_panics, C95_other_skip_fails). Everything that is not accepted is a compile error, or a panic exactly when a crate name is bad (C95_otherwise, C95_bad_crate_panics)."
  },
  {
   "property": "C96",
   "status": "partial",
   "theorems": [
    "BCash.C96_typed_fields_partial",
    "BCash.C96_fields_partial",
    "BCash.C96_type",
    "BCash.C96_type_undocumented",
    "BCash.C96_values",
    "BCash.C96_contract_partial",
    "BCash.C96_without_variants_partial",
    "BCash.C96_signed_partial",
    "BCash.C96_empty_list_fails",
    "BCash.C96_typed_partial",
    "BCash.C96_typed_balanced_partial"
   ],
   "note": "The type and the operations of its values exactly, for types rustc accepts; the composition with C88, C71 and C85 (C96_contract_partial, C96_signed_partial) under the restrictions of C60. Well-typed values of the type make well-typed executions, from the source (C96_typed_partial, with C69's restrictions; C96_typed_balanced_partial through balanced conditionals). False for #[variant()] without variants (C96_empty_list_fails). Without variants every value of the generated struct is covered when branches leave the same names (C96_without_variants_partial). With variants: for all field values that make the condition of their variant true, if branches leave the same names and the names in conditions are given to nothing else (C96_fields_partial, C96_typed_fields_partial)."
  },
  {
   "property": "C97",
   "status": "partial",
   "theorems": [
    "BCash.C97_arrays",
    "BCash.C97_array_sequences",
    "BCash.C97_fixed",
    "BCash.C97_addresses",
    "BCash.C97_built",
    "BCash.C97_parsed",
    "BCash.C97_parsed_built",
    "BCash.C97_same_address_fails",
    "BCash.C97_same_address_partial",
    "BCash.C97_kinds",
    "BCash.C97_opcodes",
    "BCash.C97_pubkeys",
    "BCash.C97_integers"
   ],
   "note": "Everything but the last sentence in full. Addresses with the same prefix, type and hash need not be equal (C97_same_address_fails: upper case, omitted prefix); exactly when they are is C97_addresses, C97_built, C97_parsed and C97_parsed_built; after with_prefix they are (C97_same_address_partial)."
  },
  {
   "property": "C98",
   "status": "partial",
   "theorems": [
    "BCash.C98_detected_fails",
    "BCash.C98_no_panic_fails",
    "BCash.C98_q_before_p_fails",
    "BCash.C98_one_letter_partial",
    "BCash.C98_beginning_partial",
    "BCash.C98_lengths_partial",
    "BCash.C98_exchanged"
   ],
   "note": "False of the code as stated: C98_detected_fails gives two accepted strings, one with a letter inserted, with different hashes; C98_no_panic_fails an address which panics without one letter; C98_q_before_p_fails shows that every address ending in p stays accepted with a q before it. C98_one_letter_partial, C98_beginning_partial, C98_lengths_partial and C98_exchanged are what holds for all addresses."
  },
  {
   "property": "C99",
   "status": "partial",
   "theorems": [
    "BCash.C99_build_returns",
    "BCash.C99_payment",
    "BCash.C99_insufficient",
    "BCash.C99_no_key",
    "BCash.C99_amounts_fails",
    "BCash.C99_fee_fails"
   ],
   "note": "False of the code without the conditions: C99_amounts_fails (amounts of 2^64 and more panic) and C99_fee_fails (a fee rate at which size times rate overflows panics). Under the conditions: C99_build_returns for all builders, C99_payment, C99_insufficient and C99_no_key for the whole way from secret keys to a valid transaction, for either implementation of the signature trait."
  },
  {
   "property": "C100",
   "status": "partial",
   "theorems": [
    "BCash.C100_fields_partial",
    "BCash.C100_spending",
    "BCash.C100_coin_works",
    "BCash.C100_coin_valid",
    "BCash.C100_script_valid",
    "BCash.C100_insufficient",
    "BCash.C100_refused",
    "BCash.C100_contract_partial",
    "BCash.C100_without_variants_partial"
   ],
   "note": "C100_spending, C100_coin_works, C100_coin_valid, C100_script_valid, C100_insufficient and C100_refused hold for all coins and signatories meeting the stated conditions. C100_contract_partial starts from the source of a contract and has the restrictions of C60_names_partial (declOk, progOk); without the conditions on amounts and fees building panics (C99_amounts_fails, C99_fee_fails). Contracts without variants whose branches leave the same names without a condition on the run (C100_without_variants_partial). With variants: for all field values that make the condition of their variant true, if branches leave the same names and the names in conditions are given to nothing else (C100_fields_partial)."
  },
  {
   "property": "C101",
   "status": "proved",
   "theorems": [
    "BCash.C101_contents",
    "BCash.C101_carried",
    "BCash.C101_export",
    "BCash.C101_contract",
    "BCash.C101_made",
    "BCash.C101_placeholder"
   ],
   "note": "C101_contents: the builder with tags and provenance refines the plain one of C99/C100. C101_carried: what each input and output carries. C101_export and C101_contract: through JSON text, for transactions whose pushed integers are script numbers and with fewer than 2^64 arrays and strings."
  },
  {
   "property": "C102",
   "status": "partial",
   "theorems": [
    "BCash.C102_handover",
    "BCash.C102_signing",
    "BCash.C102_relay_partial",
    "BCash.C102_dyn_fails",
    "BCash.C102_empty_fails",
    "BCash.C102_size_fails"
   ],
   "note": "False of the code in three cases: C102_dyn_fails (sign_input and sign_input_dyn on a transaction taken over record an empty script and report success), C102_empty_fails (inputs signed with an empty script), C102_size_fails (signatories that look at the estimated size). Otherwise C102_handover, C102_signing and C102_relay_partial, for every reachable prepared transaction, any number of parties and signers."
  },
  {
   "property": "C103",
   "status": "proved",
   "theorems": [
    "BCash.C103_send",
    "BCash.C103_create",
    "BCash.C103_send_size",
    "BCash.C103_leftover_before_fails"
   ],
   "note": "C103_send, C103_create and C103_send_size, on top of C100 and C44; C103_leftover_before_fails shows that the condition on the order of the outputs is needed."
  },
  {
   "property": "C104",
   "status": "partial",
   "theorems": [
    "BCash.C104_numbers",
    "BCash.C104_words",
    "BCash.C104_report_partial",
    "BCash.C104_unknown_partial",
    "BCash.C104_inputs",
    "BCash.C104_rejected",
    "BCash.C104_notif_fails",
    "BCash.C104_altstack_fails"
   ],
   "note": "C104_report_partial: for scripts within the restrictions of C60 (declOk, progOk) without OP_NOTIF. False of the code for OP_NOTIF (C104_notif_fails) and in the wording about the alternative stack (C104_altstack_fails). C104_inputs, C104_numbers and C104_rejected without restrictions on the program; C104_inputs for declOk declarations. The words of every report, including integer errors, are fixed literally (C104_words). C104_unknown_partial: the name of an unknown operation as it is written."
  }
 ]
}