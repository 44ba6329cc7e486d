{
 "C04": {
  "status": "partial",
  "note": "False of the code for 5-byte operands (C04_decode_value_fails: bits are shifted out silently); proved for at most 4 bytes and the exact behaviour is characterised."
 },
 "C06": {
  "status": "partial",
  "note": "Proved for widths below 2^28; from 2^28 bytes on the code panics (C06_num2bin_fails)."
 },
 "C12": {
  "note": "Proved for wrapping, naming, concatenating, hashing, splitting; false for arrays recorded as signatures (C12_signature_split_fails), which the property does not include."
 },
 "C18": {
  "note": "Proved for well-formed operations; C18_illformed_ops_fails shows what happens for a bare PUSHDATA opcode or an 'invalid' byte that is defined."
 },
 "C19": {
  "status": "partial",
  "note": "False for pushes with a longer prefix than needed (C19_reserialise_fails); proved exactly on the scripts whose pushes use the shortest length prefix (iff)."
 },
 "C25": {
  "status": "partial",
  "note": "First separator: proved. Explicit index: the code keeps the separator itself (C25_explicit_index_fails); exact behaviour proved."
 },
 "C27": {
  "status": "partial",
  "note": "False of the code: a P2SH/P2PKH-shaped script whose push is not 20 bytes makes classification panic (C27_no_panic_fails); C27_panic_iff_partial characterises the panics exactly."
 },
 "C30": {
  "status": "partial",
  "note": "False of the code (C30_no_panic_fails: byte string that is too short or non-alphabet); C30_panic_iff_partial characterises the panicking inputs exactly."
 },
 "C31": {
  "status": "partial",
  "note": "False of the code: nonzero padding and over-long payloads are accepted (C31_canonical_fails_padding, C31_canonical_fails_length); uniqueness holds for canonical length and padding."
 },
 "C53": {
  "status": "partial",
  "note": "Round trip proved; public keys check the length; hashes of the wrong length panic (C53_hash_length_fails), exact behaviour in C53_hash_length_partial. Public keys from exactly 33 bytes: C53_pubkey_slices."
 },
 "C34": {
  "status": "partial",
  "note": "Holds whenever a leftover output is included; false otherwise (C34_fee_fails: no fee is required if no leftover output is included)."
 },
 "C37": {
  "status": "proved",
  "note": "C37_value_dependent_fails shows that the condition on signatories is needed for equality."
 },
 "C42": {
  "note": "The text layer is C94; the hand-written form of table entries is C42_entry_roundtrip. Base64 is a parameter in C42_roundtrip and RFC 4648 base64 in C42_roundtrip_base64."
 },
 "C43": {
  "status": "partial",
  "note": "False of the code: an out-of-range byte array index panics (C43_index_fails) and a cyclic preimage index recurses without end (C43_cycle_fails). Everything else is exact: accepted documents and their transactions (C43_accepts, iff), every error names a real fault (C43_errors), panics and endless recursion only through missing or cyclic entries (C43_panics, C43_endless), and for documents with nothing else wrong exactly then (C43_exact_partial); depth bounded by the table (C43_depth)."
 },
 "C44": {
  "note": "GENESIS and SEND scripts parse to the supplied data exactly when the SLP specification allows the parameters (1 to 19 amounts; document hash of 0 or 32 bytes, decimals at most 9, mint baton at least 2, NFT1 child restrictions); otherwise the script built is not a valid SLP message (the library does not reject such parameters)."
 },
 "C45": {
  "status": "partial",
  "note": "Proved for every opcode with a recorded output order except OP_DEPTH, whose order names an input it does not have (C45_depth_fails)."
 },
 "C57": {
  "status": "partial",
  "note": "False for OP_NOTIF (no input recorded), OP_ROLL (takes two items, one recorded) and the role list of OP_CHECKSIGVERIFY; proved for all other opcodes on every stack."
 },
 "C46": {
  "status": "partial",
  "note": "Proved for all nestings when branches are written as blocks (C46_blocks); without blocks false for nested conditionals (C46_nested_fails, C46_nested_else_fails) and repeated OP_ELSE (C46_double_else_fails), proved for simple nesting. Rejection of unbalanced conditionals and preservation of all statements other than OP_ELSE are proved unconditionally."
 },
 "C47": {
  "status": "partial",
  "note": "Meaning of conditions proved; parsing is exact except that a plain name starting with a non-ASCII letter panics (C47_nonascii_fails)."
 },
 "C60": {
  "status": "partial",
  "note": "Proved for scripts that keep to declOk/progOk and for runs that take only branches the variant condition allows, where a conditional whose branches are both allowed must leave the same names (for balanced scripts without variants: all runs, C60_without_variants_partial; with variants: all field values that make the condition of their variant true, if the names in conditions are given to nothing else, C60_fields_partial); false without (10 C60_*_fails theorems: dynamic OP_PICK depth, offset before OP_PICK, OP_SIZE names, depth_of with two names, reserved names, renaming on the alt stack, branches leaving different names, disallowed branch, reused name of a condition)."
 },
 "C61": {
  "status": "proved",
  "note": "Under declOk (each input names every variant at most once, lists only in scripts with variants); C61_empty_list_fails shows the latter is needed. C61_spend inherits the hypotheses of C60. C61_without_variants: for all field values if branches leave the same names. C61_fields: with variants, for all field values that make the condition true."
 },
 "C63": {
  "note": "Hash functions and signature verification are parameters. The script code is the script after its first OP_CODESEPARATOR (C25); limits on script size, element size and operation count are not part of the specification of spending."
 },
 "C65": {
  "status": "partial",
  "note": "Proved for AND, OR, XOR and right shift. False of the code for left shifts (C65_shl_fails: bits shifted out are lost silently); C65_shl_partial characterises left shifts exactly."
 },
 "C66": {
  "status": "partial",
  "note": "Soundness and progress are proved for every opcode with a typed function. OP_NOTIF is accepted by the macro but has no typed function (C66_coverage), so generated code using it does not compile; integers are only checked by type, so a sum of five bytes still fails at its next use (C66_range_fails). C66_general: no needless type errors."
 },
 "C67": {
  "status": "partial",
  "note": "Proved under the restrictions of C60 (declOk, progOk, branches allowed and balanced); false without: OP_SIZE without output names records the name of the item for its size, and renaming an unnamed item by OP_TOALTSTACK records nothing (C67_*_fails). C67_fields_partial: with variants, for all field values that make the condition true."
 },
 "C68": {
  "status": "partial",
  "note": "Proved for scripts with conditionals and variants: if for every variant and every allowed sequence of branches there is a run with right names, and these runs agree about the names each statement finds, the macro accepts. Restrictions: progOk (C60), acceptableProg, no contradictory conditions, every statement reached, size bound; the C68_*_fails theorems show that the macro rejects or panics without them."
 },
 "C69": {
  "status": "partial",
  "note": "Proved under the restrictions of C60 plus: no two variables of one name differ in type and operands have one type in all variants, and no first branch is taken where the condition also allows the second (C69_typed_partial); for scripts without variants and transmute both follow from all inputs and named pushes having different names (C69_plain_partial); through conditionals whose branches leave the same names and the same types the last restriction is not needed (C69_balanced_partial), so without variants and transmute every execution is typed when branches are balanced (C69_without_variants_partial); with variants for all field values that make the condition of their variant true (C69_fields_partial). False without: shadowed names, and operands with different types in different variants, where acceptance depends on the hash order, and branches leaving items of different types (C69_*_fails)."
 },
 "C70": {
  "status": "partial",
  "note": "Text form proved for parsed addresses and for built ones whose prefix is lower-case without colon; false otherwise (C70_human_fails). The binary form replaces a non-canonical (upper-case) string by the canonical one and loses a prefix kind that does not belong to the prefix (C70_binary_fails)."
 },
 "C71": {
  "status": "partial",
  "note": "Proved under the restrictions of C60 (declOk, progOk, branches allowed and balanced), for scripts with any number of OP_CODESEPARATORs anywhere (execScript: signatures are checked against what follows the last executed one; C71_without_separators: this is the execution of C60 if there is none). C71_without_variants_partial: without variants, every spend of a script whose conditionals leave the same names on both branches is covered (C71_decided: no run is undecided, which discharges the same hypothesis of C85, C96 and C100 as well). With variants, C71_balanced_partial covers every spend that takes only branches allowed by the condition of its variant (ObeysScript) when branches the condition allows both leave the same names (C71_obeying), in particular every spend whose field values make the condition true if its names are given to nothing else (C71_fields_partial)."
 },
 "C72": {
  "status": "proved",
  "note": "The name of a whole array is not a piece and does not survive further concatenation or splitting (C72_whole_name_fails). Arrays recorded as signatures, which C12_signature_split_fails shows to be split wrongly, are not among the arrays of C72_split."
 },
 "C73": {
  "status": "proved",
  "note": "Arrays may contain signatures and other function results; they are found again uncut. The name of a pushed array as a whole is found on its only part, not on the array read back (C73_whole_name_fails); empty parts may be lost."
 },
 "C74": {
  "status": "proved",
  "note": "For every type of the universe CodeTy; the transaction types are structs of it and are also linked to the contents-level codecs directly (C74_contents)."
 },
 "C75": {
  "status": "proved",
  "note": "The exception in the statement (a hash read back alone) is C75_hash_alone_fails. Empty pieces are not tracked."
 },
 "C76": {
  "status": "proved",
  "note": "Hash functions are parameters with the right output lengths."
 },
 "C77": {
  "status": "proved",
  "note": "The names outpoint_i and output_i given in the code do not survive concatenation (the parts are flattened), so they are not part of the statement; the names sequence_i do."
 },
 "C78": {
  "status": "proved",
  "note": "The builder's signatories are arbitrary (a build function and placeholder signatures)."
 },
 "C79": {
  "status": "proved",
  "note": "That the minimality mark matters for serialisation although it does not for equality is C79_serialise_fails."
 },
 "C80": {
  "status": "partial",
  "note": "False for ByteArray and Tx in self-describing binary formats (C80_binary_fails); proved for all types in human-readable formats and formats that read byte strings from sequences, and for all other types in all formats."
 },
 "C81": {
  "status": "partial",
  "note": "False for objects read from their consensus serialisation (C81_deser_fails) and for documents with another hash or bytes (C81_read_fails); proved for hashing and for storing and reading back."
 },
 "C82": {
  "status": "partial",
  "note": "False for hash texts that are hex of a wrong length (C82_fails); proved that nothing else panics."
 },
 "C50": {
  "status": "partial",
  "note": "False for the empty list (C50_empty_stream_fails: the decoder always reads one value) and diverges for types of zero size (C50_zero_size_diverges); proved for all other streams."
 },
 "C52": {
  "status": "partial",
  "note": "False: a vector count whose byte size exceeds the capacity limit panics (C52_vec_count_fails); C52_panic_iff_partial gives the exact set of panicking inputs for every type."
 },
 "C83": {
  "status": "partial",
  "note": "Order with a machine integer outside the script range is false of the code (C83_order_fails); C83_order_partial gives the exact behaviour. Everything else is proved in full."
 },
 "C84": {
  "status": "partial",
  "note": "The foreign crates are parameters; the laws assumed of them are the structure Spec.Ecdsa, met by toyEcdsa. Agreement of the two implementations is false for uncompressed public keys (C84_backends_fails), and the error for a 32-byte non-key is misleading (C84_key_error_fails); everything else is proved in full."
 },
 "C85": {
  "status": "partial",
  "note": "Proved under the restrictions of C71 for scripts whose signature checks all come after their only separator (or that have none). FALSE otherwise: the preimage handed out always has the code after the first separator of the script, whatever is executed (C85_other_separators_fails: check before the separator, second separator, separator in a branch not taken). For scripts with separators and checks anywhere, C85_every_check_partial says exactly what each check is against and how the preimage handed out has to be changed for it. Without variants every spend is covered when branches leave the same names (C85_without_variants_partial). With variants: for all field values that make the condition of their variant true, if branches leave the same names and the names in conditions are given to nothing else (C85_fields_partial)."
 },
 "C86": {
  "status": "partial",
  "note": "Accepted arguments and parameters are characterised exactly (iff); documentation is described for texts in sections and without heading. False in three ways: repeated or bare variant attributes (C86_variants_fails) and panics (C86_arguments_panic_fails). syn's parsing of tokens into syntax trees is not modelled."
 },
 "C87": {
  "status": "partial",
  "note": "Accepted bodies are characterised exactly. False: a variable is never a value (C87_variable_fails). The value an expression pushes is part of the syntax tree (it is computed by compiled user code)."
 },
 "C88": {
  "status": "partial",
  "note": "Under the restrictions of C60 and C68; branches of conditionals written as blocks (see C46 for other ways of writing them). C88_without_variants_partial: for all field values if branches leave the same names. With variants: for all field values that make the condition of their variant true, if branches leave the same names and the names in conditions are given to nothing else (C88_fields_partial)."
 },
 "C89": {
  "status": "partial",
  "note": "FALSE of the code for amounts, fee products and widths that overflow: C89_build_fails, C89_fee_fails, C89_num2bin_fails, C89_decode_fails. Proved for everything that does not overflow. What a release build does in all cases is C89_release_build (sums and fee modulo 2^64) and C89_release_width."
 },
 "C91": {
  "status": "partial",
  "note": "False for undefined bytes built by hand (C91_text_fails) and for byte strings with longer length prefixes (C91_bytes_fails); proved for the rest. Names of opcodes come from the derived Debug and strum implementations."
 },
 "C92": {
  "status": "partial",
  "note": "False for transactions with longer size forms or push prefixes (C92_txid_fails); everything else, including the exact set on which it holds, is proved."
 },
 "C93": {
  "status": "partial",
  "note": "Export proved in full; the bound on imports is false (C93_import_fails)."
 },
 "C94": {
  "status": "partial",
  "note": "Everything proved in full except freedom from crashes, which is false for texts with dangling or cyclic indices (C94_dangling_fails); crashes come from nothing else (C94_crashes_partial). serde_json is transcribed."
 },
 "C95": {
  "status": "partial",
  "note": "Exact for accepted structs: which ones are accepted and implemented, what is written and read, round trip, canonical reading, the library's own structs. False for documented fields, fields called data, generics, crate paths and `skip` of other macros (C95_documented_field_fails, C95_data_field_fails, C95_generic_fails, C95_crate_path_panics, C95_other_skip_fails). Everything that is not accepted is a compile error, or a panic exactly when a crate name is bad (C95_otherwise, C95_bad_crate_panics)."
 },
 "C96": {
  "status": "partial",
  "note": "The type and the operations of its values exactly, for types rustc accepts; the composition with C88, C71 and C85 (C96_contract_partial, C96_signed_partial) under the restrictions of C60. Well-typed values of the type make well-typed executions, from the source (C96_typed_partial, with C69's restrictions; C96_typed_balanced_partial through balanced conditionals). False for #[variant()] without variants (C96_empty_list_fails). Without variants every value of the generated struct is covered when branches leave the same names (C96_without_variants_partial). With variants: for all field values that make the condition of their variant true, if branches leave the same names and the names in conditions are given to nothing else (C96_fields_partial, C96_typed_fields_partial)."
 },
 "C97": {
  "status": "partial",
  "note": "Everything but the last sentence in full. Addresses with the same prefix, type and hash need not be equal (C97_same_address_fails: upper case, omitted prefix); exactly when they are is C97_addresses, C97_built, C97_parsed and C97_parsed_built; after with_prefix they are (C97_same_address_partial)."
 },
 "C98": {
  "status": "partial",
  "note": "False of the code as stated: C98_detected_fails gives two accepted strings, one with a letter inserted, with different hashes; C98_no_panic_fails an address which panics without one letter; C98_q_before_p_fails shows that every address ending in p stays accepted with a q before it. C98_one_letter_partial, C98_beginning_partial, C98_lengths_partial and C98_exchanged are what holds for all addresses."
 },
 "C99": {
  "status": "partial",
  "note": "False of the code without the conditions: C99_amounts_fails (amounts of 2^64 and more panic) and C99_fee_fails (a fee rate at which size times rate overflows panics). Under the conditions: C99_build_returns for all builders, C99_payment, C99_insufficient and C99_no_key for the whole way from secret keys to a valid transaction, for either implementation of the signature trait."
 },
 "C100": {
  "status": "partial",
  "note": "C100_spending, C100_coin_works, C100_coin_valid, C100_script_valid, C100_insufficient and C100_refused hold for all coins and signatories meeting the stated conditions. C100_contract_partial starts from the source of a contract and has the restrictions of C60_names_partial (declOk, progOk); without the conditions on amounts and fees building panics (C99_amounts_fails, C99_fee_fails). Contracts without variants whose branches leave the same names without a condition on the run (C100_without_variants_partial). With variants: for all field values that make the condition of their variant true, if branches leave the same names and the names in conditions are given to nothing else (C100_fields_partial)."
 },
 "C101": {
  "status": "proved",
  "note": "C101_contents: the builder with tags and provenance refines the plain one of C99/C100. C101_carried: what each input and output carries. C101_export and C101_contract: through JSON text, for transactions whose pushed integers are script numbers and with fewer than 2^64 arrays and strings."
 },
 "C102": {
  "status": "partial",
  "note": "False of the code in three cases: C102_dyn_fails (sign_input and sign_input_dyn on a transaction taken over record an empty script and report success), C102_empty_fails (inputs signed with an empty script), C102_size_fails (signatories that look at the estimated size). Otherwise C102_handover, C102_signing and C102_relay_partial, for every reachable prepared transaction, any number of parties and signers."
 },
 "C103": {
  "status": "proved",
  "note": "C103_send, C103_create and C103_send_size, on top of C100 and C44; C103_leftover_before_fails shows that the condition on the order of the outputs is needed."
 },
 "C104": {
  "status": "partial",
  "note": "C104_report_partial: for scripts within the restrictions of C60 (declOk, progOk) without OP_NOTIF. False of the code for OP_NOTIF (C104_notif_fails) and in the wording about the alternative stack (C104_altstack_fails). C104_inputs, C104_numbers and C104_rejected without restrictions on the program; C104_inputs for declOk declarations. The words of every report, including integer errors, are fixed literally (C104_words). C104_unknown_partial: the name of an unknown operation as it is written."
 }
}