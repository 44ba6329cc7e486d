{"id": "C01", "title": "Compact-size integers round-trip and are canonical", "statement": "Writing any u64 as a Bitcoin compact-size integer and reading it back from a stream that continues with arbitrary bytes yields the same number and leaves exactly the continuation; the encoding written has 1, 3, 5 or 9 bytes and is the shortest accepted encoding of that number.", "quantifier": "every u64 value and every continuation byte string", "why_tests_cant": "2^64 values times all continuations; boundary values 0xfc/0xfd/0xffff/0x10000/... are only four of the points where it can go wrong", "anchors": ["bitcoin-cash-base/src/encoding_utils.rs: read_var_int, write_var_int, encode_var_int"]}
{"id": "C02", "title": "Compact-size reader is total and consumes exactly what it reports", "statement": "On every byte string the compact-size reader either returns an I/O error (only when the input is truncated) or a u64 together with the unread suffix; it never panics, and it never reads past the 1/3/5/9 bytes announced by the first byte.", "quantifier": "every byte string", "why_tests_cant": "attacker-controlled input of any length", "anchors": ["bitcoin-cash-base/src/encoding_utils.rs: read_var_int"]}
{"id": "C03", "title": "Script integers round-trip through their byte encoding", "statement": "For every 32-bit integer other than i32::MIN, encoding it as a script number and decoding the bytes gives the same integer, and the encoding uses at most 4 bytes and is minimally encoded.", "quantifier": "every i32 except i32::MIN", "why_tests_cant": "2^32 values with sign-bit/trim boundaries at every byte length", "anchors": ["bitcoin-cash-base/src/encoding_utils.rs: encode_int, vec_to_int, encode_minimally"]}
{"id": "C04", "title": "Decoding script number bytes yields their numeric value", "statement": "Decoding any byte string as a script number either returns the little-endian sign-magnitude value of the bytes or an error; it never returns a different number and never panics.", "quantifier": "every byte string of any length", "why_tests_cant": "unbounded inputs, the failure needs a 5-byte operand that no test uses", "anchors": ["bitcoin-cash-base/src/encoding_utils.rs: vec_to_int"]}
{"id": "C05", "title": "Minimal re-encoding preserves value and is minimal", "statement": "Minimally re-encoding a script number byte string preserves its sign-magnitude value (negative zero becoming zero), never lengthens it, yields a minimally encoded string in the sense of the BCH MINIMALDATA rule, and is idempotent.", "quantifier": "every byte string of any length", "why_tests_cant": "unbounded trailing-zero trimming loop with three exits", "anchors": ["bitcoin-cash-base/src/encoding_utils.rs: encode_minimally"]}
{"id": "C06", "title": "Fixed-width number encoding (NUM2BIN) is exact or fails", "statement": "Converting an integer to an n-byte array fails exactly when n is not positive or the value does not fit in n bytes of sign-magnitude; otherwise the result has exactly n bytes and its sign-magnitude value is the integer.", "quantifier": "every script integer and every requested width", "why_tests_cant": "range check depends on both arguments; two-dimensional infinite domain", "anchors": ["bitcoin-cash-base/src/byte_array.rs: ByteArray::from_int"]}
{"id": "C07", "title": "Script integer arithmetic is exact or reports an error", "statement": "Addition, subtraction, multiplication, truncating division, remainder and negation of script integers return the exact mathematical result when it lies in [-(2^31-1), 2^31-1] (and the divisor is nonzero) and an error otherwise; no operation panics or wraps.", "quantifier": "every pair of script integers", "why_tests_cant": "2^62 operand pairs, overflow at both ends and at i32::MIN which is an i32 but not a script integer", "anchors": ["bitcoin-cash-base/src/integer.rs: Integer, IntegerResult, Add, Sub, Mul, Div, Rem, Neg"]}
{"id": "C08", "title": "Integer errors propagate and never compare equal", "statement": "An arithmetic expression over script integers that meets an error anywhere evaluates to that first error (left to right), whatever is computed afterwards, and an errored result is neither equal to, less than nor greater than anything, including itself.", "quantifier": "every arithmetic expression tree over script integers", "why_tests_cant": "expressions of unbounded depth", "anchors": ["bitcoin-cash-base/src/integer.rs: IntegerResult::op, unop, PartialEq, PartialOrd"]}
{"id": "C09", "title": "Every integer obtainable through the API is a valid script integer", "statement": "Whatever sequence of constructors, conversions and operators is used, an Integer value always lies in [-(2^31-1), 2^31-1], so serialising it as a script number never exceeds 4 bytes; constructing from any machine integer outside the range is an error.", "quantifier": "every finite sequence of API calls and every machine integer of any width", "why_tests_cant": "an invariant over unbounded histories", "anchors": ["bitcoin-cash-base/src/integer.rs: Integer::new, UInteger::new, Neg for Integer"]}
{"id": "C10", "title": "Byte array concat and split act on the bytes as list operations", "statement": "Concatenating byte arrays yields the concatenation of the bytes, splitting at an index yields the first `at` bytes and the remaining bytes, and fails exactly when `at` exceeds the length - independent of names, functions and recorded preimages.", "quantifier": "every pair of byte arrays with arbitrary (nested) provenance and every index", "why_tests_cant": "provenance trees are unbounded recursive structures", "anchors": ["bitcoin-cash-base/src/byte_array.rs: ByteArray::concat, split, from_parts"]}
{"id": "C11", "title": "Splitting then concatenating is the identity on bytes", "statement": "For every byte array and every valid index, concatenating the two halves of a split gives an array equal to the original, and splitting a concatenation at the length of the first operand gives arrays equal to the operands.", "quantifier": "every byte array with arbitrary provenance and every index", "why_tests_cant": "unbounded provenance trees and lengths", "anchors": ["bitcoin-cash-base/src/byte_array.rs: ByteArray::concat, split"]}
{"id": "C12", "title": "Recorded preimages stay consistent with the bytes", "statement": "For every byte array built by wrapping raw bytes, naming, concatenating and hashing, the recorded parts of a concatenation concatenate to its bytes, and the recorded argument of a hash hashes to its bytes; splitting such an array keeps this consistency.", "quantifier": "every byte array built by any finite sequence of API calls", "why_tests_cant": "invariant over arbitrary construction histories", "anchors": ["bitcoin-cash-base/src/byte_array.rs: ByteArray::concat_named_option, split, apply_function"]}
{"id": "C13", "title": "Equality ignores provenance and is a congruence", "statement": "Two byte arrays are equal exactly when their bytes are equal, equality is an equivalence relation, and replacing an array by an equal one in a concat, split, script push or serialisation gives equal results.", "quantifier": "every pair of byte arrays and every context", "why_tests_cant": "all contexts and all provenance trees", "anchors": ["bitcoin-cash-base/src/byte_array.rs: PartialEq for ByteArray, Hash for ByteArray", "bitcoin-cash/src/bitcoin_code.rs: BitcoinCode"]}
{"id": "C14", "title": "Consensus serialisation round-trips for every type", "statement": "For every primitive integer, fixed-size hash, byte string, list, outpoint, input, output, transaction and signature preimage, deserialising the serialisation followed by arbitrary bytes yields an equal value (up to fields declared as skipped, which come back as defaults, and script operations in parsed form) and exactly the trailing bytes.", "quantifier": "every value of every serialisable type, of any size, with any trailing bytes", "why_tests_cant": "structures with unboundedly many inputs, outputs and operations", "anchors": ["bitcoin-cash/src/bitcoin_code.rs: BitcoinCode", "bitcoin-cash-code/src/lib.rs: bitcoin_code derive", "bitcoin-cash/src/tx.rs: TxOutpoint, TxInput, TxOutput, UnhashedTx", "bitcoin-cash/src/tx_preimage.rs: TxPreimage"]}
{"id": "C15", "title": "Whole-buffer deserialisation accepts no trailing bytes", "statement": "Whole-buffer deserialisation succeeds exactly when streaming deserialisation succeeds with nothing left over; on success with left over bytes it reports how many were left over.", "quantifier": "every type and byte string", "why_tests_cant": "all byte strings", "anchors": ["bitcoin-cash/src/bitcoin_code.rs: BitcoinCode::deser"]}
{"id": "C16", "title": "Deserialisation consumes a prefix and reports the true remainder", "statement": "Whenever streaming deserialisation succeeds, the remainder returned is a suffix of the input, and appending bytes to the input only appends them to the remainder (the decoded value does not depend on bytes after it).", "quantifier": "every type, every byte string and every continuation", "why_tests_cant": "all inputs and all continuations", "anchors": ["bitcoin-cash/src/bitcoin_code.rs: BitcoinCode::deser_rest"]}
{"id": "C17", "title": "Serialised transactions are unambiguous", "statement": "Two transactions with the same serialisation have the same version, lock time, and the same number of inputs and outputs with equal outpoints, sequences, values and script bytes.", "quantifier": "every pair of transactions", "why_tests_cant": "injectivity quantifies over pairs of unbounded structures", "anchors": ["bitcoin-cash/src/tx.rs: UnhashedTx", "bitcoin-cash/src/bitcoin_code.rs"]}
{"id": "C18", "title": "Script operations round-trip through their bytes", "statement": "Serialising a list of script operations and parsing the bytes gives the operations back one by one in parsed form, and serialising those gives the same bytes: opcodes (other than the bare PUSHDATA prefixes) and undefined bytes are unchanged, pushes carry the same bytes (a minimal push that has a one-byte opcode comes back as that opcode, the minimality mark comes back as whether the encoding is minimal), booleans and integers come back as the minimal pushes that put the same bytes on the stack.", "quantifier": "every list of well-formed operations of any length and push size", "why_tests_cant": "unbounded lists and push sizes crossing 75/255/65535 boundaries", "anchors": ["bitcoin-cash/src/script.rs: serialize_ops, deserialize_ops, Script::deser_ops, ser_ops", "bitcoin-cash-base/src/op.rs: Op"]}
{"id": "C19", "title": "Re-serialising a parsed script preserves its bytes", "statement": "Parsing script bytes and serialising the result gives the original bytes back, so parsing a transaction and serialising it does not change its transaction id.", "quantifier": "every byte string that parses as a script", "why_tests_cant": "all byte strings; fails only for unusual push encodings", "anchors": ["bitcoin-cash/src/script.rs: deserialize_ops, serialize_ops"]}
{"id": "C20", "title": "Minimal pushes use the shortest encoding", "statement": "A push marked minimal serialises to the unique shortest push that puts exactly those bytes on the stack (OP_0, OP_1NEGATE, OP_1..OP_16, direct, PUSHDATA1/2/4), i.e. it satisfies the BCH minimal-data rule for every content.", "quantifier": "every byte string content of any length", "why_tests_cant": "content-dependent special cases and three length boundaries", "anchors": ["bitcoin-cash/src/script.rs: serialize_push_prefix, serialize_op"]}
{"id": "C21", "title": "The two script parsers agree and never panic", "statement": "The slice parser and the provenance-preserving parser accept the same inputs and produce equal operations; on malformed (truncated) input they return an error and never panic or read out of bounds.", "quantifier": "every byte string", "why_tests_cant": "attacker-controlled scripts of any length", "anchors": ["bitcoin-cash/src/script.rs: deserialize_ops, deserialize_ops_byte_array"]}
{"id": "C22", "title": "Opcode bytes and opcodes correspond one to one", "statement": "Converting an opcode to its byte and back is the identity; a byte has at most one opcode; every byte of a script is either a push prefix, a defined opcode, or is kept as an undefined byte.", "quantifier": "every byte and every opcode", "why_tests_cant": "finite but exercised by no test", "anchors": ["bitcoin-cash-base/src/opcode.rs: Opcode", "bitcoin-cash/src/script.rs: deserialize_ops"]}
{"id": "C23", "title": "Signature preimages commit to what BIP143/replay-protected sighash says", "statement": "For every transaction, input index and sighash flag combination the signature preimage contains the hash of all outpoints (zero under ANYONECANPAY), of all sequences (zero under ANYONECANPAY, NONE or SINGLE), of all outputs, of the same-index output (SINGLE) or zero, the signed outpoint, script code, value, sequence, version, lock time and flags, in the consensus order.", "quantifier": "every transaction with any number of inputs and outputs, every input index, every flag combination", "why_tests_cant": "unbounded transactions times all flag combinations", "anchors": ["bitcoin-cash/src/tx_preimage.rs: TxPreimage::build_preimages"]}
{"id": "C24", "title": "Flags leave unsigned parts free and protect signed parts", "statement": "With ANYONECANPAY the preimage does not depend on other inputs; with NONE it does not depend on outputs; with SINGLE it depends on no output but the one with the same index; with ALL, changing any output, or (without ANYONECANPAY) any outpoint changes the preimage unless the hash function collides.", "quantifier": "every pair of transactions and flag combination", "why_tests_cant": "2-safety property over pairs of executions", "anchors": ["bitcoin-cash/src/tx_preimage.rs: TxPreimage::build_preimages, SigHashFlags"]}
{"id": "C25", "title": "Code separators select the script code", "statement": "The script code used for signing is the part of the locking script after the first executed code separator (or the whole script if there is none); asking for the n-th separator explicitly gives the script after that separator.", "quantifier": "every script and separator index", "why_tests_cant": "scripts of unbounded length", "anchors": ["bitcoin-cash/src/script.rs: to_script_code, to_script_code_first"]}
{"id": "C26", "title": "Standard locking scripts are recognised as what they pay to", "statement": "Classifying the standard pay-to-pubkey-hash or pay-to-script-hash script of any hash, or its parsed bytes, returns exactly that hash; any other classification result is returned only for scripts of the corresponding shape.", "quantifier": "every 20-byte hash and every script", "why_tests_cant": "all hashes and all scripts", "anchors": ["bitcoin-cash/src/destination.rs: script_destination", "bitcoin-cash/src/scripts.rs: p2pkh_script, p2sh_script"]}
{"id": "C27", "title": "Classifying a locking script never panics", "statement": "Classifying any locking script parsed from bytes returns a classification and never panics.", "quantifier": "every script", "why_tests_cant": "adversarial scripts", "anchors": ["bitcoin-cash/src/destination.rs: script_destination"]}
{"id": "C28", "title": "Cash addresses round-trip", "statement": "Parsing the address string generated for any 20-byte hash, address type and (lower-case, colon-free) prefix returns the same hash, type and prefix.", "quantifier": "every 20-byte hash, both address types, every admissible prefix", "why_tests_cant": "2^160 hashes", "anchors": ["bitcoin-cash/src/address.rs: Address::from_hash, from_cash_addr"]}
{"id": "C29", "title": "Cash address checksum catches typing errors", "statement": "Replacing between one and five letters anywhere in a valid address string (prefix of at most twelve letters, of which only the low five bits count, and payload; other than in letter case, keeping the lengths) makes parsing fail, with a checksum error if the new letters are in the alphabet; writing it with the prefix of the other network makes it fail too. Five is the limit: two valid addresses differ in six letters. Changing any non-empty set of characters within a window of eight consecutive characters of the payload of a valid address string (other than in letter case, keeping the length and alphabet) makes parsing fail with a checksum error.", "quantifier": "every valid address string, every choice of positions and every replacement", "why_tests_cant": "10^13 replacements for every address", "anchors": ["bitcoin-cash/src/address.rs: _poly_mod, _verify_checksum, from_cash_addr"]}
{"id": "C30", "title": "Parsing an address string never panics", "statement": "Parsing any string as a cash address returns an address or an error and never panics.", "quantifier": "every string", "why_tests_cant": "adversarial strings", "anchors": ["bitcoin-cash/src/address.rs: Address::from_cash_addr"]}
{"id": "C31", "title": "An accepted address string denotes one hash and type", "statement": "If parsing succeeds, regenerating the address from the parsed prefix, type and hash gives the canonical lower-case form of the accepted string, so that two accepted strings with the same prefix denote the same address exactly when they are equal up to case.", "quantifier": "every accepted string", "why_tests_cant": "all strings", "anchors": ["bitcoin-cash/src/address.rs: from_cash_addr, from_hash"]}
{"id": "C32", "title": "Built transactions never spend more than their inputs", "statement": "Whenever the builder succeeds, the sum of the output values is at most the sum of the input values; if the fixed outputs alone exceed the inputs it fails and reports exactly the missing amount.", "quantifier": "every set of inputs, fixed and leftover outputs, fee rate", "why_tests_cant": "arbitrary numbers of inputs/outputs and all amounts", "anchors": ["bitcoin-cash/src/tx_builder.rs: TxBuilder::build"]}
{"id": "C33", "title": "Leftover outputs respect their bounds", "statement": "Every leftover output that is included has a value above its lower bound and at most its upper bound; leftover outputs that cannot reach their lower bound are omitted.", "quantifier": "every builder state", "why_tests_cant": "greedy allocation over arbitrarily many leftovers", "anchors": ["bitcoin-cash/src/tx_builder.rs: TxBuilder::build, add_leftover_output_bounded"]}
{"id": "C34", "title": "The requested fee rate is paid", "statement": "Whenever the builder succeeds, the difference between inputs and outputs is at least the fee rate times the estimated size of the built transaction.", "quantifier": "every builder state and fee rate", "why_tests_cant": "depends on the interaction of several leftovers and size estimates", "anchors": ["bitcoin-cash/src/tx_builder.rs: TxBuilder::build, estimate_size"]}
{"id": "C35", "title": "Fixed outputs are kept unchanged and in order", "statement": "Every fixed-value output appears in the built transaction with its exact value and script, and the relative order of all outputs is the order in which they were added.", "quantifier": "every builder state", "why_tests_cant": "positions shift when leftovers are omitted", "anchors": ["bitcoin-cash/src/tx_builder.rs: TxBuilder::build, build_without_estimation"]}
{"id": "C36", "title": "A single leftover output receives everything except the fee", "statement": "If exactly one leftover output with no upper bound is present and it is included, its value is exactly inputs minus fixed outputs minus the fee for the estimated size.", "quantifier": "every builder state with one leftover", "why_tests_cant": "all amounts", "anchors": ["bitcoin-cash/src/tx_builder.rs: TxBuilder::build"]}
{"id": "C37", "title": "Size estimates are upper bounds", "statement": "The estimated size equals the serialised size of the built transaction with placeholder unlocking scripts (for signatories whose placeholder size does not depend on output amounts; otherwise of that transaction before the fee is deducted from the leftover outputs), and the signed transaction is never larger than the estimate when each actual unlocking script is no longer than its placeholder.", "quantifier": "every transaction and every placeholder/actual script pair", "why_tests_cant": "compact-size prefixes change width with script length and input count", "anchors": ["bitcoin-cash/src/tx_builder.rs: estimate_size", "bitcoin-cash/src/scripts.rs: P2PKHSignatory"]}
{"id": "C38", "title": "Signing order does not matter", "statement": "Signing the inputs of an unsigned transaction in any order yields the same completed transaction.", "quantifier": "every unsigned transaction and every permutation of signing calls", "why_tests_cant": "factorially many schedules", "anchors": ["bitcoin-cash/src/tx_builder.rs: UnsignedTx::sign_input, complete_tx"]}
{"id": "C39", "title": "An input is signed at most once", "statement": "Signing an input that is already signed returns an error naming that input and leaves the unsigned transaction unchanged; signing an input changes no other input, no output, version or lock time.", "quantifier": "every unsigned transaction, every history of signing calls", "why_tests_cant": "histories of unbounded length", "anchors": ["bitcoin-cash/src/tx_builder.rs: UnsignedTx::sign_input, sign_input_dyn"]}
{"id": "C40", "title": "Completing yields exactly the prepared transaction", "statement": "Completing succeeds exactly when every input is signed, and the completed transaction has the prepared version, lock time, outpoints, sequences and outputs in order; exporting a partial transaction leaves unsigned inputs with empty scripts.", "quantifier": "every unsigned transaction and signing history", "why_tests_cant": "histories of unbounded length", "anchors": ["bitcoin-cash/src/tx_builder.rs: UnsignedTx::complete_tx, partial_tx"]}
{"id": "C41", "title": "Rebuilding from an existing transaction preserves it", "statement": "Importing a transaction whose inputs are all signed into the builder and building it without estimation yields a transaction with the same serialisation.", "quantifier": "every transaction", "why_tests_cant": "all transactions", "anchors": ["bitcoin-cash/src/tx_builder.rs: TxBuilder::from_tx, build_without_estimation, partial_tx"]}
{"id": "C42", "title": "JSON export/import preserves transactions with provenance", "statement": "Exporting a transaction to its JSON form and importing it gives back the same transaction, including the names, functions and recorded preimages of all pushed byte arrays.", "quantifier": "every transaction with arbitrarily nested provenance", "why_tests_cant": "deduplication tables over unbounded structures", "anchors": ["bitcoin-cash/src/serialize_json.rs: tx_to_json, json_to_tx"]}
{"id": "C43", "title": "JSON import rejects malformed input without panicking", "statement": "Importing any well-typed JSON document returns a transaction or an error; it never panics and always terminates.", "quantifier": "every JSON document of the expected schema", "why_tests_cant": "adversarial index tables", "anchors": ["bitcoin-cash/src/serialize_json.rs: json_to_tx"]}
{"id": "C44", "title": "SLP outputs have the specified layout", "statement": "The GENESIS and SEND outputs built by the library parse, by the rules of the SLP token-type-1/NFT1 specification, to exactly the token type, token id, metadata and amounts supplied, in order.", "quantifier": "every token id, amount list and metadata", "why_tests_cant": "all amounts and all list lengths", "anchors": ["bitcoin-cash-slp/src/lib.rs: slp_genesis_output, slp_send_output, slp_amount_ops"]}
{"id": "C45", "title": "Static stack tracking of shuffle opcodes matches execution", "statement": "For every stack-manipulation opcode without data-dependent behaviour, the effect recorded by the library (which inputs are consumed and the order of outputs) equals the effect of executing the opcode on any stack deep enough.", "quantifier": "every shuffle opcode and every stack", "why_tests_cant": "all stacks", "anchors": ["bitcoin-cash-base/src/opcode.rs: Opcode::behavior"]}
{"id": "C46", "title": "The script macro keeps the written opcode order", "statement": "Structuring the statements of a script into nested conditionals and emitting them yields the same statement sequence, with each statement in the branch in which it was written; unbalanced conditionals are rejected.", "quantifier": "every statement sequence with arbitrarily nested conditionals", "why_tests_cant": "unbounded nesting", "anchors": ["bitcoin-cash-script-macro/src/parse.rs: parse_op_if", "bitcoin-cash-script-macro/src/generate.rs: run_if"]}
{"id": "C47", "title": "Variant conditions mean what they say", "statement": "A condition in disjunctive form over variant names holds for a variant exactly when one of its alternatives is satisfied, and parsing a written condition yields that meaning.", "quantifier": "every condition and every assignment", "why_tests_cant": "all formulas", "anchors": ["bitcoin-cash-script-macro/src/ir.rs: VariantPredicate::holds", "bitcoin-cash-script-macro/src/parse.rs: parse_predicate"]}
{"id": "C48", "title": "Hash byte order conversions are inverse", "statement": "Constructing a hash from its big- or little-endian bytes or hex and reading it out in the same order is the identity, and the two orders are byte reversals of each other; wrong lengths are rejected with an error.", "quantifier": "every byte string", "why_tests_cant": "all byte strings", "anchors": ["bitcoin-cash/src/hash.rs: Hashed"]}
{"id": "C49", "title": "Relative lock times encode per BIP68", "statement": "A relative time lock of blocks or 512-second units is encoded in the sequence number so that BIP68 decoding gives back the same kind and amount, and the disable bit is clear.", "quantifier": "every 16-bit amount of both kinds", "why_tests_cant": "2^17 values never tested", "anchors": ["bitcoin-cash/src/sequence.rs: CsvTimedelta::sequence"]}
{"id": "C50", "title": "Concatenated streams of values round-trip", "statement": "Encoding a list of values one after another and decoding the buffer until it is empty yields the same list, and decoding terminates.", "quantifier": "every list of values", "why_tests_cant": "lists of unbounded length including the empty list", "anchors": ["bitcoin-cash/src/serializer.rs: encode_bitcoin_code_all, decode_bitcoin_code_all"]}
{"id": "C51", "title": "Sighash flag bytes round-trip through signatures", "statement": "Reading the flags from the last byte of the signature in a pay-to-pubkey-hash unlocking script built by the library returns the declared flags it was built with, together with the same public key; the signature bytes are the first push without its last byte.", "quantifier": "every signature, public key and set of declared flags", "why_tests_cant": "all signatures", "anchors": ["bitcoin-cash/src/destination.rs: script_p2pkh_spend", "bitcoin-cash/src/scripts.rs: P2PKHSignatory", "bitcoin-cash/src/tx_preimage.rs: SigHashFlags"]}
{"id": "C52", "title": "Deserialisation never panics", "statement": "Deserialising any byte string as any supported type returns a value or an error and never panics.", "quantifier": "every type and byte string", "why_tests_cant": "adversarial length prefixes", "anchors": ["bitcoin-cash/src/bitcoin_code.rs: Vec<T>", "bitcoin-cash-base/src/byte_array.rs: split"]}
{"id": "C53", "title": "Hashes and public keys round-trip through JSON", "statement": "Writing a hash or public key to JSON and reading it back gives the same value; reading a JSON string that is not hex or has the wrong length is an error, not a panic. A public key is made from exactly the slices of 33 bytes: of any other length the checked constructor gives nothing and the unchecked one panics.", "quantifier": "every hash, public key and JSON string", "why_tests_cant": "all strings", "anchors": ["bitcoin-cash/src/hash.rs: Hashed, serde impls", "bitcoin-cash/src/pubkey.rs: Pubkey serde impls"]}
{"id": "C54", "title": "Generated addresses conform to the CashAddr specification", "statement": "For every prefix, address type and 20-byte hash, generating an address succeeds and yields prefix, colon and a payload whose 5-bit symbols carry version byte and hash with zero padding and whose checksum is a multiple of the CashAddr generator polynomial over GF(32).", "quantifier": "every prefix, type and hash", "why_tests_cant": "2^160 hashes times all prefixes", "anchors": ["bitcoin-cash/src/address.rs: Address::from_hash, to_cash_addr, calculate_checksum, convert_bits"]}
{"id": "C55", "title": "Reading an operation as a number gives the number it pushes", "statement": "For every opcode and every push of at most four bytes, reading the operation as an integer yields the script-number value of the bytes the operation puts on the stack, and nothing for operations that push nothing.", "quantifier": "every operation", "why_tests_cant": "all pushes", "anchors": ["bitcoin-cash-base/src/op.rs: Op::to_integer"]}
{"id": "C56", "title": "Leftover outputs are served greedily by precedence", "statement": "When building, leftover outputs are served in order of their precedence number, ties in the order of addition: each receives what remains after the fixed outputs, the leftover outputs served before it and the fee for the transaction so far, capped at its upper bound, if that exceeds its lower bound, and is omitted otherwise; its amount does not depend on leftover outputs served later.", "quantifier": "every set of inputs, fixed outputs and leftover outputs", "why_tests_cant": "amounts interact through fees, sizes and bounds over any number of leftover outputs", "anchors": ["bitcoin-cash/src/tx_builder.rs: TxBuilder::build"]}
{"id": "C57", "title": "Declared stack effects of opcodes match execution", "statement": "For every opcode whose stack behaviour the library records, every successful execution of that opcode by the script machine removes exactly the recorded number of input items, adds exactly the recorded number of output items with the recorded types, leaves the items below unchanged, and one role is recorded per output.", "quantifier": "every opcode, stack and script environment", "why_tests_cant": "every stack; only a few opcodes are exercised in scripts", "anchors": ["bitcoin-cash-base/src/opcode.rs: Opcode::behavior", "bitcoin-cash-base/src/opcode.rs: OpcodeBehavior"]}
{"id": "C58", "title": "Pushed values are exactly what ends up on the stack", "statement": "A script made of pushes of byte arrays, integers and truth values, written to bytes and run by the script machine, succeeds and leaves exactly the pushed values on the stack in order (integers in minimal script-number encoding), with everything below untouched.", "quantifier": "every sequence of well-formed pushes and every starting stack", "why_tests_cant": "all values and lengths, crossing every push-encoding boundary", "anchors": ["bitcoin-cash-base/src/op.rs: Op", "bitcoin-cash/src/script.rs: serialize_op, serialize_ops"]}
{"id": "C59", "title": "Standard spends are accepted exactly when they should be", "statement": "The unlocking script the P2PKH signatory builds satisfies the locking script of a P2PKH address exactly when the public key hashes to the address and the signature with its flag byte verifies under that key; the locking script of a P2SH address leaves true exactly when the topmost item hashes to the address.", "quantifier": "every address, key, signature and script environment", "why_tests_cant": "quantifies over signatures, keys and verification oracles", "anchors": ["bitcoin-cash/src/scripts.rs: P2PKHSignatory::build_script", "bitcoin-cash/src/address.rs: Address -> Script", "bitcoin-cash/src/scripts.rs: p2pkh_script, p2sh_script"]}
{"id": "C60", "title": "Names in macro scripts stand for the items they are written for", "statement": "A script accepted by the script macro compiles, for each variant, to bytes that do from the stack of the variant's inputs exactly what the written statements do when every stack item carries its name: every name written as an operand is the name of the item the operation finds there, and depth_of pushes the actual depth of the named item.", "quantifier": "every declaration, script with arbitrarily nested conditionals, variant, input values and script environment", "why_tests_cant": "static tracking must agree with execution on every path and stack; variants come from hash maps with unspecified order", "anchors": ["bitcoin-cash-script-macro/src/generate.rs: GenerateScript", "bitcoin-cash-script-macro/src/state.rs: State, StackItem, VariantStates"]}
{"id": "C61", "title": "Generated inputs start the script on the stack it was written for", "statement": "The operations generated for a variant's inputs push its fields in declaration order, leaving fields of other variants out, so that the script starts on exactly the named stack it was checked against; spending with them runs the written script.", "quantifier": "every declaration, variant and field values", "why_tests_cant": "all declarations and values", "anchors": ["bitcoin-cash-script-macro/src/generate.rs: run_script (input structs, InputScript impl)"]}
{"id": "C62", "title": "The macro emits the written statements in order", "statement": "The operations in a generated script are, in order, one per written statement with the written opcode, condition markers included, except that depth statements become pushes of a number and transmutations emit nothing.", "quantifier": "every declaration and script the macro accepts", "why_tests_cant": "unbounded nesting", "anchors": ["bitcoin-cash-script-macro/src/generate.rs: run_stmt, run_if"]}
{"id": "C63", "title": "Signed and completed transactions spend their inputs", "statement": "Building (with or without size estimation), signing and completing a transaction gives a transaction in which every input is checked against the preimage handed out for signing it: an input signed through the P2PKH signatory satisfies the P2PKH output it spends exactly when the key hashes to the address, the flags include the fork id and the signature verifies for that preimage; an input of a P2SH signatory satisfies its address's output exactly when the redeem script succeeds on the pushed items.", "quantifier": "every builder history, set of inputs and outputs, order of signing calls, key, signature, hash function and signature scheme", "why_tests_cant": "quantifies over whole transactions, signing orders and verification oracles", "anchors": ["bitcoin-cash/src/tx_builder.rs: TxBuilder::build, UnsignedTx::sign_input, complete_tx", "bitcoin-cash/src/tx_preimage.rs: TxPreimage::build_preimages", "bitcoin-cash/src/scripts.rs: P2PKHSignatory", "bitcoin-cash/src/address.rs: Address::from_redeem_script, from_pk"]}
{"id": "C64", "title": "The library's own macro scripts are the standard ones", "statement": "The P2PKH and P2SH script functions the library defines with its script macro produce, for every address, the same operations as converting that address to a script, and their input struct pushes signature then public key.", "quantifier": "every address, signature and public key", "why_tests_cant": "the macro's output depends on every input field", "anchors": ["bitcoin-cash/src/scripts.rs: p2pkh, p2sh", "bitcoin-cash-script-macro/src/generate.rs: GenerateScript", "bitcoin-cash/src/address.rs: Address -> Script"]}
{"id": "C65", "title": "Bitwise operators and shifts of script integers are exact or an error", "statement": "AND, OR and XOR of script integers yield the integer whose two's-complement bits are the bitwise combination of the operands' bits, or an error if that is not a script integer; shifting left or right by fewer than 32 places multiplies by or divides (rounding down) by the power of two, or is an error if the result is not a script integer.", "quantifier": "every pair of script integers and every shift distance", "why_tests_cant": "2^64 operand pairs; silent wrap-around only shows for particular operands", "anchors": ["bitcoin-cash-base/src/integer.rs: BitAnd, BitOr, BitXor, Shl, Shr for IntegerResult"]}
{"id": "C66", "title": "Types checked in generated scripts are sound for execution", "statement": "Every opcode accepted by the script macro has a typed function with which the generated code is type-checked. If the operands of an opcode have the types its function demands, then executing it never fails for a missing, non-numeric or badly encoded operand but only for the value-dependent reasons of that opcode, and its results have the types the function returns; functions of opcodes that only move operands accept operands of any types; pushing a Rust value puts its stack item, of the type the value has in the generated code, on the stack.", "quantifier": "every opcode, operands of the demanded types, meaning of the type parameters, rest of the stack and script environment; every pushable value", "why_tests_cant": "all operand values and all stacks", "anchors": ["bitcoin-cash-base/src/opcode.rs: func", "bitcoin-cash-base/src/opcode.rs: Opcode::behavior, is_disabled", "bitcoin-cash-base/src/data_type.rs: BitcoinDataType, StackItemData"]}
{"id": "C67", "title": "Names recorded in a generated script are the names of the items", "statement": "In debug mode every operation of a generated script carries the names of the items it leaves on the main and alternative stack. Along every execution from a variant's inputs, every executed operation carries exactly as many names as items it leaves, deepest first, and they are the names these items have according to the written statements.", "quantifier": "every declaration, script with nested conditionals, variant, input values, script environment and hash-map order", "why_tests_cant": "the record must agree with execution on every path; which variant's record is kept depends on hash order", "anchors": ["bitcoin-cash-script-macro/src/generate.rs: GenerateScript::make_tagged_op, run_other_opcode", "bitcoin-cash-script-macro/src/state.rs: StackItem::name_tokens"]}
{"id": "C68", "title": "Correctly named scripts are accepted by the macro", "statement": "A script is accepted by the script macro, neither rejected nor aborting with a panic, if for every variant and every sequence of branches the variant allows its statements execute to the end for some values of the inputs, with every written name being the name of the item found there and with each statement finding items of the same names however it is reached.", "quantifier": "every declaration, script with nested conditionals, family of input values and script environment", "why_tests_cant": "acceptance must hold for every correct script, not only for those tried", "anchors": ["bitcoin-cash-script-macro/src/generate.rs: GenerateScript", "bitcoin-cash-script-macro/src/state.rs: VariantStates", "bitcoin-cash-base/src/opcode.rs: Opcode::behavior"]}
{"id": "C69", "title": "Type-checked scripts never apply an opcode to operands of wrong types", "statement": "If the code the macro generates for a script (a variable for every stack item, a call of the typed function of every opcode) passes the Rust type check, then in every execution of a variant from inputs of their declared types, every executed opcode finds operands of the types its function demands on the stack, so it can only fail for the value-dependent reasons of that opcode or for an integer of more than four bytes.", "quantifier": "every declaration, script with nested conditionals, variant, inputs of the declared types, script environment and hash-map order", "why_tests_cant": "a static guarantee about every execution; which variant's variable is checked depends on hash order", "anchors": ["bitcoin-cash-script-macro/src/generate.rs: run_push, run_other_opcode, run_opcode_function, run_if", "bitcoin-cash-script-macro/src/state.rs: StackItem, VariantStates", "bitcoin-cash-base/src/opcode.rs: func", "bitcoin-cash-base/src/data_type.rs: BitcoinDataType"]}
{"id": "C70", "title": "Stored addresses come back as the same address", "statement": "An address written as text and read back is the same address. Written in binary form and read back it has the same type, hash, prefix and prefix kind and the canonical CashAddr string; binary data with a hash of the wrong length is rejected and reading never panics. The kind reported for an address is the one its prefix names. Changing the prefix keeps type and hash.", "quantifier": "every address obtained by parsing or from a hash, every prefix, every binary record", "why_tests_cant": "all 2^160 hashes and all prefix strings", "anchors": ["bitcoin-cash/src/address.rs: Serialize for Address, Deserialize for Address, Address::with_prefix, prefix_kind, AddressPrefix, Prefix"]}
{"id": "C71", "title": "A contract written with the macro is spent exactly when its statements succeed", "statement": "For a contract written with the script macro and the P2SH address made from its generated script: an input spending that address, added with the generated script and a P2SH signatory that unlocks it with the generated inputs of a variant, is valid in the built, signed and completed transaction exactly when the statements as written, executed with the field values under their declared names against that transaction, run to the end leaving exactly one true item; no written name is ever the wrong one.", "quantifier": "every declaration, script with nested conditionals, variant, field values, builder history, signing order, hash function and signature scheme", "why_tests_cant": "a statement about every contract, every spending transaction and every execution", "anchors": ["bitcoin-cash-script-macro/src/generate.rs: GenerateScript, run_script", "bitcoin-cash/src/address.rs: Address::from_redeem_script", "bitcoin-cash/src/tx_builder.rs: TxBuilder::build, UnsignedTx::sign_input, complete_tx"]}
{"id": "C72", "title": "Provenance of byte arrays keeps every piece and its name", "statement": "Naming an array changes its name only. The pieces recorded for a concatenation or join, with their names, functions and arguments, are those of the operands in order; a function's result is recorded with its argument. Splitting distributes the pieces to the two sides and leaves all unchanged except the one the cut goes through, which becomes two unnamed pieces, marked as unexpectedly split if it was the result of a hash. The bytes of the pieces are the bytes of the array.", "quantifier": "every array obtained by wrapping, naming, concatenating, hashing and splitting in any order, every split position", "why_tests_cant": "unbounded nesting of provenance and all split positions", "anchors": ["bitcoin-cash-base/src/byte_array.rs: ByteArray::new, named, named_option, concat, from_parts, apply_function, split"]}
{"id": "C73", "title": "Provenance survives writing and reading a script", "statement": "The pieces of a serialised script are, operation by operation, an opcode byte named after the opcode, or an unnamed push prefix followed by the pieces of the pushed array. Parsing such a byte array gives the operations back, and each pushed array read back is recorded as joined from exactly the non-empty parts of the array that was written (raw bytes, hashes, signatures, with their names and preimages), none of them cut. Only the name of a pushed array as a whole is not on the array read back but on its single part.", "quantifier": "every list of well-formed operations; pushed arrays with any provenance whose recorded parts join to their bytes", "why_tests_cant": "a parsed array is obtained by several nested splits of one big array at offsets that depend on all earlier operations; tests try a few shapes", "anchors": ["bitcoin-cash/src/script.rs: serialize_ops, deserialize_ops_byte_array", "bitcoin-cash-base/src/byte_array.rs: ByteArray::split, concat, from_parts"]}
{"id": "C74", "title": "Names and provenance never influence what is serialised or how bytes are read", "statement": "Values that differ only in names and provenance of the byte arrays in them serialise to the same bytes. Reading an array of bytes gives the same outcome whatever names and provenance the array has: the same value up to names and provenance and the same bytes left over, the same error, or a panic in both cases.", "quantifier": "every serialisable type built from integers, booleans, arrays, hashes and scripts with vectors and derived structs; every value of it, every byte array", "why_tests_cant": "all types, all values, all shapes of provenance; splitting follows the provenance tree, so it could in principle matter", "anchors": ["bitcoin-cash/src/bitcoin_code.rs: BitcoinCode, impls", "bitcoin-cash/src/script.rs: BitcoinCode for Script", "bitcoin-cash-code/src/lib.rs: generate, serialize_macro", "bitcoin-cash-base/src/byte_array.rs: ByteArray::split"]}
{"id": "C75", "title": "Provenance survives serialising a value and reading it back", "statement": "The pieces of a serialised value are its size prefixes (named size), its numbers (named after their fields) and the pieces of the arrays in it, in order. Reading the serialised value back, alone or with data following, gives arrays with the same pieces (raw bytes, hashes, signatures, with their names and arguments), and the data that follows keeps its pieces. A fixed-size array that is a single piece is read back under the name of its field. A hash written and read back on its own loses its provenance.", "quantifier": "every serialisable type (including transactions); every value with arrays whose recorded pieces join to their bytes and sizes that can be written", "why_tests_cant": "each array read back results from nested splits of one big provenance tree at offsets depending on everything before it", "anchors": ["bitcoin-cash/src/bitcoin_code.rs: BitcoinCode, impls", "bitcoin-cash/src/script.rs: BitcoinCode for Script", "bitcoin-cash/src/tx.rs: TxOutpoint, TxInput, TxOutput, UnhashedTx", "bitcoin-cash-code/src/lib.rs: generate, serialize_macro", "bitcoin-cash-base/src/byte_array.rs: ByteArray::split, concat, from_parts"]}
{"id": "C76", "title": "Digests record the function and the message", "statement": "Each hash type computes its hash function of the bytes of the message (double SHA-256 for Sha256d, RIPEMD-160 of SHA-256 for Hash160), without panicking, and the digest records the function and the message with all its provenance, also after renaming, conversion to an array and concatenation. The id of a hashed transaction is recorded as the double hash of its serialisation.", "quantifier": "every hash type, message with any provenance, hash functions with the right output length, transaction", "why_tests_cant": "all messages and provenance trees", "anchors": ["bitcoin-cash/src/hash.rs: Hashed, Sha1, Ripemd160, Sha256, Sha256d, Hash160", "bitcoin-cash-base/src/byte_array.rs: ByteArray::apply_function", "bitcoin-cash/src/tx.rs: UnhashedTx::hashed"]}
{"id": "C77", "title": "Signature preimages record what their hashes are made from", "statement": "Built from a transaction whose arrays have provenance, the preimages have the contents of the signature algorithm, and in each the three hashes are recorded as the double hash of the serialised outpoints, sequence numbers and outputs (all, or the one output of the input) or as plain zero bytes, exactly as the flags say, with the names and provenance of all arrays inside. A serialised preimage consists of the pieces of its fields in order, the hashes with that provenance.", "quantifier": "every transaction with well-formed scripts, input, flags; hash functions", "why_tests_cant": "all transactions, flags and provenance trees", "anchors": ["bitcoin-cash/src/tx_preimage.rs: TxPreimage::build_preimages, TxPreimage", "bitcoin-cash/src/hash.rs: Hashed::digest, named", "bitcoin-cash-base/src/byte_array.rs: ByteArray"]}
{"id": "C78", "title": "The builder builds what its calls say", "statement": "A new builder is empty with the given version and lock time (1 and 0 by default) and a fee of 1000 satoshis per 1000 bytes unless given. After any sequence of calls it has the outputs and inputs asked for in that order after those it had, and the fee set last; the reference returned for an input is its position. To estimate the size, the signatory of an input is asked for its script with its placeholder signatures and one preimage per flag set. The builder taken back from a prepared transaction is the one it was built from, whatever was signed.", "quantifier": "every sequence of builder calls, inputs, outputs, signatories, signing history", "why_tests_cant": "unbounded sequences of calls; user-supplied signatories", "anchors": ["bitcoin-cash/src/tx_builder.rs: TxBuilder::new, new_simple, new_with_fee, add_input, add_output, add_outputs, add_leftover_output, set_fee_per_kb, estimate_size, UnsignedTx::into_tx_builder"]}
{"id": "C79", "title": "Equality ignores names, provenance and minimality marks, and nothing else", "statement": "Byte arrays are equal exactly if their bytes are; operations exactly if they are the same opcode, invalid byte, boolean or integer or push the same bytes; scripts and transactions exactly if all their data are, whatever the names, source locations and provenance. Equal scripts serialise to the same bytes unless their minimality marks differ.", "quantifier": "every pair of arrays, operations, scripts, transactions", "why_tests_cant": "equality is hand-written for operations and arrays; all pairs", "anchors": ["bitcoin-cash-base/src/op.rs: PartialEq for Op", "bitcoin-cash-base/src/byte_array.rs: PartialEq for ByteArray", "bitcoin-cash/src/tagged_op.rs: TaggedOp", "bitcoin-cash/src/tx.rs: UnhashedTx, TxInput, TxOutput", "bitcoin-cash/src/script.rs: Script"]}
{"id": "C80", "title": "Stored values come back", "statement": "Every well-formed value of every type with serde support (hashes, keys, scripts, integers, transactions and their parts, unsigned inputs, SLP data, and lists of them) can be written in any format, and reading what was written gives the same value, including the metadata of inputs; scripts come back in parsed form with the same bytes. In JSON it is written in the documented layout: fields under their camel-case names, hashes as reversed hex, scripts as hex with their length. Reading does not depend on the order of entries, on unknown entries, or on whether optional fields without a value are written or left out. FALSE for byte arrays and hashed transactions in self-describing binary formats (CBOR, MessagePack): they are written as a sequence of numbers but read as a byte string.", "quantifier": "every stored type, format, value, document", "why_tests_cant": "all values and formats; nested documents in any arrangement", "anchors": ["bitcoin-cash-base/src/byte_array.rs: Serialize/Deserialize for ByteArray, FixedByteArray", "bitcoin-cash-base/src/integer.rs: Serialize/Deserialize for Integer, UInteger", "bitcoin-cash/src/script.rs: Serialize/Deserialize for Script", "bitcoin-cash/src/pubkey.rs: Serialize/Deserialize for Pubkey", "bitcoin-cash/src/tx.rs: TxOutpoint, TxInput, TxOutput, UnhashedTx, Tx", "bitcoin-cash/src/tx_builder.rs: UnsignedTxInput, InputReference", "bitcoin-cash/src/tx_preimage.rs: SigHashFlags", "bitcoin-cash-slp/src/lib.rs: SlpTx, SlpTxInput, SlpTxOutput, SlpToken, SlpAction, SlpData, SlpUtxo, TokenMeta"]}
{"id": "C81", "title": "Transaction objects are consistent", "statement": "The hash of a hashed transaction object is the double SHA-256 of its bytes, and its bytes are the serialisation of its fields: after hashing, and after storing a consistent object and reading it back. FALSE for objects read from their consensus serialisation (default fields and zero hash whatever the bytes) and for documents with another hash or other bytes (not checked).", "quantifier": "every transaction, stored document, serialised object", "why_tests_cant": "all transactions and documents", "anchors": ["bitcoin-cash/src/tx.rs: UnhashedTx::hashed, Tx", "bitcoin-cash-code/src/lib.rs: generate, serialize_macro"]}
{"id": "C82", "title": "Reading stored data never panics", "statement": "Reading a document of any type with serde support gives a value or an error. FALSE: reading a hash (or anything that holds one) from a text that is hex for a wrong number of bytes panics. Nothing else panics, and nothing panics in a binary format.", "quantifier": "every type with serde support, format, document", "why_tests_cant": "all documents, including hostile ones", "anchors": ["bitcoin-cash-base/src/byte_array.rs: Deserialize for FixedByteArray, ByteArray", "bitcoin-cash/src/script.rs: Deserialize for Script", "bitcoin-cash/src/pubkey.rs: Deserialize for Pubkey", "bitcoin-cash/src/tx.rs: TxOutpoint, TxInput, TxOutput, UnhashedTx, Tx", "bitcoin-cash-slp/src/lib.rs: SlpTx"]}
{"id": "C83", "title": "Machine integers beside script integers", "statement": "A machine integer of any of the twelve types converts to the script integer of the same value exactly if it is one (8- and 16-bit integers always), by every conversion offered; otherwise the error carries the value. An operator with a script integer on the left and any machine integer on the right gives the mathematical result when operand and result are script integers and an error otherwise; equality is equality of values; the text of a script integer is its decimal notation. The order is that of the integers. FALSE for the order with machine integers outside the script range: 5 < 2^40 is false.", "quantifier": "every machine integer type, value, operator and right operand", "why_tests_cant": "all pairs of values of all types", "anchors": ["bitcoin-cash-base/src/integer.rs: Integer::new, IntegerResult::new, From/TryFrom for Integer and IntegerResult, PartialEq, PartialOrd, Add, Sub, Mul, Div, Rem, BitAnd, BitOr, BitXor, Display"]}
{"id": "C84", "title": "Signing and verifying", "statement": "With either implementation: signing a 32-byte message with a secret key (32 bytes, big-endian, between 1 and the group order minus 1) succeeds, the signature verifies for the message under the derived public key with both implementations, is in normal form and records that it is a signature of the message; with anything else signing is an error. Verification is an error exactly if the message does not have 32 bytes, the signature is not DER or the public key is unreadable, else a verdict, and never panics. Normalising is idempotent and keeps validity. A P2PKH input signed this way over the preimage handed out is a valid spend. FALSE: the two implementations do not accept the same public keys, and the error for a 32-byte non-key says 32 bytes were expected and 32 given.", "quantifier": "every secret key, message with any provenance, public key, signature; both implementations; every secp256k1 implementation with the stated laws", "why_tests_cant": "all keys and messages; relates two implementations and the whole signing pipeline", "anchors": ["bitcoin-cash-ecc/src/c_ecc.rs: CECC", "bitcoin-cash-ecc/src/rust_ecc.rs: RustECC", "bitcoin-cash/src/ecc.rs: ECC", "bitcoin-cash/src/pubkey.rs: Pubkey"]}
{"id": "C85", "title": "What a contract checks is what was signed", "statement": "For a contract written with the script macro and spent through the builder: all signature checks of the statements as written are against the preimage handed to the signatory. A signature followed by a flag byte of the signatory is accepted by the checks of the contract in the completed transaction exactly if it verifies for the hash of the serialised preimage handed out for these flags. Holds for contracts that check signatures only after their only code separator, or have none. FALSE otherwise: the preimage always has the code after the first separator of the script, whether it is executed or followed by others.", "quantifier": "every contract, variant, field values, flag set, builder history, signing order, hash function and signature scheme", "why_tests_cant": "relates all executions of all scripts to all signing requests", "anchors": ["bitcoin-cash/src/tx_preimage.rs: TxPreimage::build_preimages", "bitcoin-cash/src/script.rs: Script::to_script_code_first", "bitcoin-cash/src/tx_builder.rs: UnsignedTx::sign_input, Signatory", "bitcoin-cash-script-macro/src/generate.rs: GenerateScript"]}
{"id": "C86", "title": "The macro reads the declarations as written", "statement": "The attribute's arguments are accepted exactly if they are the name of the input struct followed by variants with well-formed conditions, crate names and debug switches; then the variants are those written, in order, with the conditions written, and the last crate name and debug switch count. The parameters are accepted exactly if the first has a type and every other one is an identifier with well-formed variant attributes; then they are the inputs in order, with their names, types, other attributes and variants. Any documentation is accepted; after the heading of the struct, the lines before the first heading of a variant document the struct, and those of its last section a variant. FALSE: repeated variant attributes are accepted and only the last counts, `#[variant]` means a variant called `variant`, and malformed crate names and non-ASCII names panic.", "quantifier": "every attribute argument list, parameter list and documentation; every classification of characters", "why_tests_cant": "unbounded argument lists, conditions, documentation in any arrangement", "anchors": ["bitcoin-cash-script-macro/src/parse.rs: parse_attrs, parse_script_inputs, parse_script_input, parse_docs, single_path", "bitcoin-cash-script-macro/src/lib.rs: script"]}
{"id": "C87", "title": "The macro reads the statements as written", "statement": "A body is accepted exactly if every statement is written in one of the known forms (a call of an opcode or function, its bare name, a value, a block; with `let` and one name or a tuple of names for the results) and its conditionals are balanced; every written name stands for the opcode of that name or one of the three functions. No body can be read in two ways. Branches written as blocks are read as the tree written. A Rust loop or `if` is never part of an accepted script. FALSE: `let y = x;` with a variable is not read as a push of its value but as an operation called x, so the script is not accepted.", "quantifier": "every function body", "why_tests_cant": "unbounded nesting of blocks and expressions", "anchors": ["bitcoin-cash-script-macro/src/parse.rs: parse_stmts, parse_stmt, parse_stmt_expr, parse_opcode, parse_opcode_inputs, parse_op_if", "bitcoin-cash-base/src/opcode.rs: MAP_NAME_TO_ENUM"]}
{"id": "C88", "title": "From the written function to the coin", "statement": "A function written so that it declares certain variants and inputs and says certain statements is accepted exactly if the macro generates a script for these, and everything accepted is of that form. For an accepted function, the generated inputs of a variant satisfy the generated script exactly when the statements as written succeed on the inputs under their written names. A function in which all names are right is accepted.", "quantifier": "every function, attribute argument list, variant, field values, iteration order of the macro's tables", "why_tests_cant": "composition of parsing, code generation and script execution for all sources", "anchors": ["bitcoin-cash-script-macro/src/lib.rs: script", "bitcoin-cash-script-macro/src/parse.rs: parse_script", "bitcoin-cash-script-macro/src/generate.rs: GenerateScript::run"]}
{"id": "C89", "title": "Release builds return what debug builds return", "statement": "Arithmetic overflow panics in a debug build and wraps around in a release build. A call that returns in a debug build returns the same in a release build: building a transaction, encoding and decoding numbers, negating, encoding with a fixed width. If the inputs, the fixed outputs and the fee rate times the size stay below 64 bits, both builds do the same. In all cases a release build computes sums and fee modulo 2^64. FALSE beyond that: in a release build the sum of the outputs can wrap around and a transaction spending more than its inputs is built, the fee can wrap around to nothing, a number that fits is refused for widths above 2^28 bytes, and an operand of more than 2^29 bytes decodes to a wrong number.", "quantifier": "all builders, integers, operands and widths, in both profiles", "why_tests_cant": "tests run in the debug profile with small amounts", "anchors": ["bitcoin-cash/src/tx_builder.rs: build, input_sum, known_output_sum", "bitcoin-cash-base/src/encoding_utils.rs: encode_int, vec_to_int", "bitcoin-cash-base/src/byte_array.rs: from_int"]}
{"id": "C90", "title": "Recorded source texts belong to their operations", "statement": "With debug on, the operations of a generated script correspond one to one and in order to the written statements other than `transmute`, through arbitrarily nested conditionals; each operation is the one its statement stands for and is recorded with the text of its own statement, as the formatter writes it at widths 30, 40, 60 and 80, without the indentation of the formatter's document. Texts have no influence on acceptance and operations; with debug off neither texts nor names are recorded. If the formatter fails at one width, the script is rejected.", "quantifier": "every function body with any statement texts, every declaration, formatter that treats statements separately, iteration order of tables", "why_tests_cant": "unbounded nesting of conditionals, all texts, all formatters", "anchors": ["bitcoin-cash-script-macro/src/gen_source.rs: format_stmts", "bitcoin-cash-script-macro/src/generate.rs: make_stmt_token_streams, next_formatted_stmts, make_tagged_op, run_if", "bitcoin-cash-script-macro/src/parse.rs: parse_op_if"]}
{"id": "C91", "title": "The text of a script tells scripts apart", "statement": "The text of a script is the texts of its operations, in order, each followed by a blank; opcodes are written with the name they have in script functions, pushes as 0x and lower-case hexadecimal digits, integers in decimal. Scripts whose undefined bytes lie above all opcodes (in particular all parsed scripts) have the same text exactly if they are equal; byte strings with shortest length prefixes parse to scripts with the same text exactly if they are the same bytes. The debug text of an operation determines it including its minimality mark. Equal arrays hash alike. FALSE beyond that: an undefined byte 0x10 built by hand prints like the integer 10, and pushes of the same bytes with different prefixes print alike.", "quantifier": "all operations, scripts and byte strings", "why_tests_cant": "unbounded scripts, all integers and byte strings", "anchors": ["bitcoin-cash-base/src/op.rs: Display, Debug for Op", "bitcoin-cash/src/script.rs: Display for Script", "bitcoin-cash-base/src/byte_array.rs: Display, Hash for ByteArray", "bitcoin-cash-base/src/opcode.rs: Display for Opcode"]}
{"id": "C92", "title": "Transactions from elsewhere are read as they are, and rewritten canonically", "statement": "Reading a transaction from bytes succeeds exactly for byte strings that are a transaction with every size in any of the four compact forms and every script a sequence of well-formed tokens (for which memory can be reserved), and gives exactly its fields; bytes have at most one reading. What was read, of any type, can be written again with at most as many bytes, and rewriting a second time changes nothing. A transaction is rewritten as the very bytes it was read from exactly if all sizes are in their shortest form and all pushes have the shortest length prefix (or are the two-byte empty push); then its id is the hash of these bytes. FALSE beyond that: a transaction with a longer push prefix is accepted, but the id the library computes is the hash of different bytes.", "quantifier": "all byte strings, transactions, types, hash functions", "why_tests_cant": "ranges over all byte strings, not only ones the library wrote itself", "anchors": ["bitcoin-cash/src/tx.rs: UnhashedTx, hashed", "bitcoin-cash/src/bitcoin_code.rs: deser_rest, read_size", "bitcoin-cash/src/script.rs: deserialize_ops_byte_array, serialize_push_prefix"]}
{"id": "C93", "title": "JSON documents are compact; imported ones may not be", "statement": "The string table of an exported document holds exactly the strings of the transaction (names of byte arrays, source texts, names on the stack), each once; the data table holds exactly the byte data of the transaction and its recorded preimages, each once; there is one entry per byte array and recorded preimage. FALSE for imports: a document of n+1 entries, each naming at most two others, is imported as a transaction with 2^(n+1)-1 arrays, and exporting that gives as many entries.", "quantifier": "all transactions with nested provenance, all documents", "why_tests_cant": "ranges over all transactions; the blow-up needs documents of every length", "anchors": ["bitcoin-cash/src/serialize_json.rs: JsonTx::from_tx, insert_byte_array, ensure_data, insert_string, get_byte_array"]}
{"id": "C94", "title": "JSON texts of transactions", "statement": "The text tx_to_json writes is well-formed JSON with a fixed layout, in which every index points into its table; json_to_tx of that text gives the same transaction. json_to_tx accepts exactly the JSON texts (in any formatting, field order, with further fields) whose document describes a transaction, gives the transaction described, reports a deserialisation error for every other text, and never panics or recurses endlessly. The same round trip holds for the texts of all other stored values.", "quantifier": "all transactions with fewer than 2^64 arrays and strings; all texts; all values of all stored types", "why_tests_cant": "the set of texts is infinite: white space, escapes, surrogates, number forms, field orders, unknown fields", "anchors": ["bitcoin-cash/src/serialize_json.rs: tx_to_json, json_to_tx, JsonTx, JsonByteArrayEnum"]}
{"id": "C95", "title": "Derived serialisation of structs", "statement": "For a struct with named fields, #[derive(BitcoinCode)] makes an implementation that writes the fields in the order of their declaration, each as a part named after it, and nothing else, and reads them in that order; fields marked #[bitcoin_code(skip)] are not written and get their default. If the fields are read back as written (or only what they write is read), the same holds for the struct. The structs of the library get the implementations the other properties speak about. FALSE beyond that: structs with a documented field, a field called `data`, or generics get no implementation; a crate given by a path makes the macro panic; and a field marked `skip` for another macro, such as #[serde(skip)], is silently left out of the serialisation.", "quantifier": "all structs with any attributes, any field types and their implementations, all values and byte strings", "why_tests_cant": "ranges over all declarations a user can write, not only those of the library", "anchors": ["bitcoin-cash-code/src/lib.rs: generate, serialize_macro", "bitcoin-cash/src/tx.rs: TxOutpoint, TxInput, TxOutput, UnhashedTx, Tx", "bitcoin-cash/src/tx_preimage.rs: TxPreimage"]}
{"id": "C96", "title": "The generated inputs type and its values", "statement": "The type generated for the inputs of a script (if rustc accepts it) is, without variants, a struct with exactly the declared inputs as public fields, in order, with their types and other attributes, and with variants an enum with exactly the declared variants as cases, each with exactly the inputs that exist in it, documented by the written sections. The operations of a value push its field values in the order of declaration (each as its stack item), are recorded with the name and parameter text in debug mode and with nothing otherwise, and panic exactly for values that cannot be pushed. From source to chain: an output locked to the address of the script of an accepted function is spent by a value of the type exactly if the statements as written, executed on the field values under the names of the fields, leave one true item; and if rustc accepts the generated code, every opcode executed on a well-typed value finds operands of the types its function demands. FALSE for `#[variant()]` in a script without variants.", "quantifier": "all functions with any variants, inputs, documentation and attributes; all values of the type; all transactions", "why_tests_cant": "ranges over all sources, values and transactions, composing parser, generator, builder and script execution", "anchors": ["bitcoin-cash-script-macro/src/generate.rs: GenerateScript::run_script, make_tagged_op", "bitcoin-cash-base/src/data_type.rs: to_pushop", "bitcoin-cash-base/src/ops.rs: Ops"]}
{"id": "C97", "title": "Values as keys of sets and maps", "statement": "For byte arrays, hashes, public keys, opcodes and addresses, two values feed a hasher the same bytes exactly if they are equal (also in sequence: no bytes can move from one byte array to the next), and the orders of opcodes (by byte), public keys (as numbers) and script integers (by value) are total and agree with equality. Addresses with the same prefix, type and hash are equal.", "quantifier": "all values, sequences of values, address strings", "why_tests_cant": "ranges over all pairs and triples of values", "anchors": ["bitcoin-cash-base/src/byte_array.rs: Hash, PartialEq for ByteArray, FixedByteArray", "bitcoin-cash/src/address.rs: Address, AddressPrefix (derived Eq, Hash)", "bitcoin-cash/src/pubkey.rs: Pubkey (derived Ord)", "bitcoin-cash-base/src/opcode.rs: Opcode (derived Ord, Hash)", "bitcoin-cash-base/src/integer.rs: Integer (Ord, PartialOrd, PartialEq)"]}
{"id": "C98", "title": "Letters missing, doubled or exchanged in an address", "statement": "A letter missing from an address, a letter too many, or two neighbouring letters exchanged is reported as an error. FALSE for a letter too many: addresses of 42 and 43 letters are accepted, so one more letter can give another address (a q before a final p is never noticed); FALSE for a missing letter: parsing may panic. What holds: exchanged neighbours are detected; nothing shorter than 42 or longer than 43 letters is ever accepted; at each place at most one of the 32 letters can be inserted unnoticed, and none before any of the first seven letters.", "quantifier": "all accepted address strings, all places, all bytes inserted", "why_tests_cant": "ranges over all addresses and all errors; the undetected ones are one in 2^40", "anchors": ["bitcoin-cash/src/address.rs: Address::from_cash_addr, _from_cash_addr, _verify_checksum, _poly_mod"]}
{"id": "C99", "title": "A payment from secret keys goes through", "statement": "Building a transaction gives a transaction, or, exactly if the fixed outputs exceed the inputs, the error with the missing amount, whenever the amounts fit into 64 bits, the signatories can make their placeholder scripts, the fee fits into 64 bits and the output scripts can be serialised. Paying from coins whose secret keys are known (derive the public keys, make the addresses, add inputs and outputs, build, hash and sign each preimage, complete) succeeds under these conditions: the transaction has a wire form, spends exactly the coins in order, pays the fixed outputs, spends no more than it has, pays the fee rate for its actual size if it has a leftover output, and every input is valid for the output it spends. A value that is no secret key is refused. FALSE without the conditions: amounts of 2^64 and more, and fee rates for which the fee computation overflows, panic instead of giving an error.", "quantifier": "all coins, keys, outputs, fee rates, versions, lock times and flags with the fork id; all builders for the first part", "why_tests_cant": "composes key derivation, addresses, building, signature hashes, signing and script execution for any number of coins", "anchors": ["bitcoin-cash/src/tx_builder.rs: TxBuilder::build, estimate_size, UnsignedTx::sign_input, complete_tx", "bitcoin-cash-ecc/src/rust_ecc.rs: RustECC", "bitcoin-cash-ecc/src/c_ecc.rs: CECC", "bitcoin-cash/src/scripts.rs: P2PKHSignatory", "bitcoin-cash/src/tx_preimage.rs: TxPreimage::build_preimages"]}
{"id": "C100", "title": "Spending coins of any kind goes through", "statement": "Take any coins, each with its script, its signatory and a way to make signatures from the preimages handed out. If every signatory makes a placeholder script and, for the signatures made, a script no longer than the placeholder, then, with amounts and fee within 64 bits and enough money for the fixed outputs, adding, building, signing and completing go through: the transaction has a wire form, spends exactly the coins in order, pays the fixed outputs, never spends more than it has and pays the fee rate for its actual size if it has a leftover output, and every input carries the script its signatory made. An input signed with the key of its address is valid; an input with a script hash is valid exactly if its script, run on the items pushed, leaves one true item; a contract written with the macro is spent exactly if its statements, executed on the values of the generated type by name, succeed, with signatures over the preimages handed out accepted. Too little money is refused with the missing amount, and a signing error of any input is returned.", "quantifier": "all coins, mixtures of public key hashes, scripts and contracts, signatories, outputs, fee rates, versions and lock times", "why_tests_cant": "composes macro, builder, fee loop, signature hashes and script execution for any number and kind of coins", "anchors": ["bitcoin-cash/src/tx_builder.rs: TxBuilder::add_input, build, UnsignedTx::sign_input, complete_tx", "bitcoin-cash/src/tx_builder.rs: Signatory", "bitcoin-cash-script-macro/src/generate.rs: GenerateScript", "bitcoin-cash/src/scripts.rs: P2PKHSignatory"]}
{"id": "C101", "title": "Debugging information accompanies a transaction", "statement": "Debugging information (source texts, locations, names, provenance of data) never changes what is built, signed or refused: up to it, spending gives the same transaction, error or panic as without. In a spent transaction every input carries the operations its signatory returned with everything recorded in them, the push of the script with the provenance of its bytes, and the spent script exactly as given, with amount and flags; the code in the preimages is the end of this very script; outputs keep their tagged scripts. Exported as JSON, whoever imports the text gets all of this; for a contract made by the macro in debug mode, the operations correspond one to one and in order to the statements of the source, each with the text of its own statement.", "quantifier": "all coins, signatories, signing functions, outputs and scripts with any debugging information; all contracts for the last part", "why_tests_cant": "composes macro, builder, signing, export and import for all scripts and provenance trees", "anchors": ["bitcoin-cash/src/tx_builder.rs: TxBuilder, UnsignedTx", "bitcoin-cash-base/src/tagged_op.rs: TaggedOp", "bitcoin-cash-base/src/ops.rs: TaggedScript", "bitcoin-cash/src/serialize_json.rs: tx_to_json, json_to_tx", "bitcoin-cash-script-macro/src/generate.rs: make_tagged_op"]}
{"id": "C102", "title": "Signing a transaction in several places", "statement": "A prepared transaction, some of its inputs signed, can be exported as JSON; whoever takes the text over (import, from_tx, build_without_estimation) gets the same preimages for every input, debugging information included, the same outputs and signed inputs; signing there gives what signing at home gives, or the same error; after the text has gone from party to party, each signing its inputs, whoever imports it gets the very transaction that signing everything in one place gives. FALSE of the code for sign_input and sign_input_dyn: on a transaction taken over they report success and record an empty script, whatever the signatures. FALSE for inputs signed with an empty script: they count as not signed after handing over. FALSE for signatories that look at the estimated size, which is another one after handing over. With sign_input_signatory and signatories that ignore the size it holds.", "quantifier": "all builders, prepared transactions, signatories, signing functions, divisions into parties", "why_tests_cant": "ranges over all histories of building, signing, exporting and importing, for any number of parties", "anchors": ["bitcoin-cash/src/tx_builder.rs: TxBuilder::from_tx, build_without_estimation, UnsignedTx::sign_input_signatory, sign_input_dyn, partial_tx, complete_tx", "bitcoin-cash/src/serialize_json.rs: tx_to_json, json_to_tx"]}
{"id": "C103", "title": "Tokens reach their receivers", "statement": "Spending any coins on an SLP SEND message, the outputs of 1 to 19 receivers and then anything else goes through, and by the rules of SLP the output of each receiver in the completed transaction gets exactly the quantity meant for it, of that token, and no other output gets tokens, whatever leftover outputs are kept or dropped. Likewise a GENESIS message gives its quantity to the first output after it and the mint baton to the output named, and the token id made from the hash of the completed transaction is the id of this token. A SEND message is within the 223 bytes nodes relay exactly if it has at most 19 receivers. (The receivers have to come before any leftover output: one before them that is dropped moves the tokens.)", "quantifier": "all coins, signatories, fee rates, tokens, receivers, quantities, further outputs", "why_tests_cant": "ranges over all transactions and over which leftover outputs survive; the message is parsed by the independent SLP rules", "anchors": ["bitcoin-cash-slp/src/lib.rs: slp_send_output, slp_genesis_output, TokenId::from_hash", "bitcoin-cash/src/tx_builder.rs: TxBuilder::add_output, add_leftover_output, build, UnsignedTx::complete_tx", "bitcoin-cash/src/tx.rs: UnhashedTx::hashed"]}
{"id": "C104", "title": "The error reports of the script macro tell the truth", "statement": "If the script macro rejects a script, its report is true. Attached to a statement, it says of that statement as written what is so (numbers and names of parameters and results, opcodes, placeholders), names only declared variants that can get to it (or says that none can exactly if none can), and what it says about the stack (no item there, names of items, depths, all names shown in order, no item by that name) holds of every run of the variant named that gets there. About the inputs, it names a variant that an input lists and that is not declared. FALSE of the code in two cases: OP_NOTIF with one name is reported to take none; and a wrong name for OP_TOALTSTACK is reported as the name of the top item of the alternative stack, although it is the main stack.", "quantifier": "all declarations, programs with any nesting of branches, iteration orders of the variants; all runs on all values", "why_tests_cant": "ranges over all rejected scripts and over all executions leading to the statement reported", "anchors": ["bitcoin-cash-script-macro/src/state.rs: pick_roll, find_item, pop_flagged", "bitcoin-cash-script-macro/src/generate.rs: GenerateScript::run_script, run_opcode, run_other_opcode, run_opcode_function, run_if, verify_item_name, error_opcode", "bitcoin-cash-script-macro/src/ir.rs: OpcodeStmt"]}
