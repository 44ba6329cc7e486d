# Formal model of be-cash/bitcoin-cash in Lean 4

## Approach

`/verif/lean/Verif/Model/*.lean` is a hand-written, executable, total functional model of the Rust
code, function by function; every definition cites the file and lines in `/repo` it models.
`/verif/lean/Verif/Spec/*.lean` holds small independent specifications (written from the Bitcoin
Cash rules, not from the code). `/verif/lean/Verif/Proofs/*.lean` holds lemmas.
`/verif/lean/Verif/Props/*.lean` holds the property theorems (named `Cnn_...`), each with
`example`s showing that a concrete non-trivial case meets its hypotheses.

### Conventions

* A Rust `Result<T, E>` that may also panic is modelled as `Res E T` with three constructors
  `ok`, `err`, `panic`. Panics are explicit: index out of bounds, `unwrap`/`expect`, arithmetic
  overflow (the debug-profile semantics: overflow is a panic), `copy_from_slice` length mismatch,
  and `Vec::with_capacity` capacity overflow. Functions that cannot panic use `Except`/`Option`/plain types.
* Bytes are `UInt8`; `u16/u32/u64` are Lean's fixed-width types where a field stores one; arithmetic
  on amounts is done in `Nat` with an explicit overflow check. `i32` arithmetic is done in `Int`
  with explicit range checks. `usize` is 64-bit.
* `Cow`, `Arc`, borrowed slices and iterators are erased (pure values). `std::io::Read` on a slice
  is modelled by returning the unread suffix.
* Hash functions (SHA-256 etc.) and ECDSA/Schnorr are parameters of the model: nothing is assumed
  about them except where a theorem has an explicit hypothesis (e.g. "no collision between these two inputs").
* Where a property is false of the code, the model keeps the code's behaviour, a theorem proves the
  failure with a concrete witness (name contains `_fails`), and a `_partial` theorem proves the
  property on the exact (or a stated) subset where it holds.

## Trusted base

* Lean 4.33.0's kernel, and the axioms `propext`, `Classical.choice`, `Quot.sound` (no others;
  no `native_decide`, no `bv_decide`). Mathlib modules are used only for lemmas.
* The fidelity of the hand-written model to the Rust source (the citations are there to be checked).
* The semantics of Rust's std/byteorder/num-traits functions as transcribed (little-endian integers,
  `Vec`, slices, `checked_*`, `str::split`, `to_ascii_lowercase`).

### Modelled / not modelled

See the table at the end; it is kept current as the model grows.

## Properties

| id | what is modelled | how it is proved |
|----|------------------|------------------|
| C01, C02 | `read_var_int`/`write_var_int` on byte lists | case split on the four ranges, little-endian round-trip lemma by induction on width |
| C03–C05 | `encode_minimally`, `encode_int`, `vec_to_int` with i32 wrap/overflow semantics | sign-magnitude value spec; loop invariants by induction; C04 is false for 5-byte operands (`_fails` witness), `_partial` for at most 4 bytes |
| C06 | `ByteArray::from_int` | sign-magnitude value spec, little-endian lemmas |
| C07–C09 | `Integer`, `UInteger`, `IntegerResult` | integer range arithmetic; expression trees by structural induction; `Integer` values as reachable set of an inductive API relation |
| C10–C13 | `ByteArray` as inductive provenance tree, `split`, `concat`, `apply_function` | mutual structural recursion; invariant by induction on the tree / API history |
| C14–C17, C52 | `BitcoinCode` as a Lean structure (ser, deser) with instances for all types | lawful-codec predicate closed under products, lists, length prefixes; C52 false for `Vec` (capacity overflow) |
| C18–C22 | opcode table, `Op`, `Script` ser/deser in both variants | induction over op lists / byte strings; C19 false for non-minimal pushes |
| C23–C25 | `build_preimages`, `SigHashFlags`, `to_script_code*` | equality with an independent BIP143 spec; 2-safety by rewriting; C25 false for explicit index |
| C26, C27 | `script_destination` | case analysis; C27 false (witness), `_partial` for 20-byte pushes |
| C28–C31 | cash address encode/decode incl. polymod | polymod as linear map over xor; convert-bits through base-2^k positional value; C29 for letters anywhere: any five columns of the parity check matrix over GF(32) are independent, shown by an elimination whose soundness is proved and which the kernel runs (`Proofs/CashErrorsTab`, about a minute); C30 false (witness); C31 false for non-zero padding bits |
| C32–C37 | `TxBuilder::build`, `estimate_size` | loop invariants over the leftover list; C34 false when no leftover is included |
| C38–C41 | `UnsignedTx` signing state machine | commuting updates, permutation induction |
| C42, C43 | JSON interning tables; `Spec/Import`: what a document describes, from its tables alone | table-extension invariant; C43 false (index out of range, cyclic preimages), otherwise exact: every outcome justified (an invariant of the import monad), completeness by induction over the described arrays, pigeonhole for the recursion depth |
| C44 | SLP output builders | independent SLP parser spec, round-trip |
| C45 | `Opcode::behavior` output orders | symbolic stacks |
| C46, C47 | `parse_op_if`, `VariantPredicate::holds`, `parse_predicate` | induction on statement lists; C46 false for nested conditionals |
| C48 | `Hashed` constructors | list reversal |
| C49 | `CsvTimedelta::sequence` | bit arithmetic on naturals |
| C50 | `encode_bitcoin_code_all`, `decode_bitcoin_code_all` | induction; false for the empty list of non-zero-width items |
| C51 | `script_p2pkh_spend` and P2PKH signatory | computation |
| C53 | serde impls of `Hashed`, `Pubkey` (hex strings as byte lists) | hex round trip by induction; false for wrong lengths of hashes (panic) |
| C54 | `Address::from_hash`, `to_cash_addr` | conformance to a GF(32) polynomial specification |
| C55 | `Op::to_integer` | case analysis over opcodes and script-number lemmas |
| C56 | `TxBuilder::build` | the loop processes a sorted permutation of the leftover outputs; frame lemmas for the steps before and after |
| C57 | `Opcode::behavior` against `Spec/Vm` (an independent script machine) | case analysis over opcodes, arity lemmas for stack functions; false for NOTIF, ROLL, CHECKSIGVERIFY roles |
| C58 | `serialize_ops` of pushes against `Spec/Vm.run` | token lemma per push (encoding boundaries), induction over the list |
| C59 | P2PKH signatory, address scripts against `Spec/Vm.Accepts` | unique tokenisation of script bytes, then computation of the machine |
| C60 | `GenerateScript` (generate.rs), `state.rs` against `Spec/Named.exec` (execution with named items) | simulation: each tracked variant state abstracts the named run-time stack; induction over nested statements; the names a conditional leaves are computed from the written script (`Spec.Named.namesAfter`, sound for the tracked names: `leaves_sound`), so that balanced conditionals need no variants (`prog_balanced`); false without the restrictions `declOk`, `progOk`, for unbalanced conditionals and for branches the variant does not allow (9 counterexamples); with variants, `Proofs/Fields` follows the items with names of the condition through every statement (they move, but keep their value), so that the condition of the variant being true of the field values decides the branches (`Satisfied`, `stable`; `Props/Fields` draws the same conclusion for C69, C71, C85, C88, C96, C100) |
| C61 | input generation of the macro | C58 for the field pushes, then C60 |
| C62 | emitted operations of `GenerateScript` | induction over nested statements |
| C63 | builder, signing, completion and preimages against `Spec/Spend.SpendOk` (script verification of an input with code separators, BIP65/112 locks, BIP143 signature hashes) | C23, C39, C40 composed; preimages do not depend on unlocking scripts; token lemmas for the standard scripts. Script size limits are not part of the specification |
| C64 | macro scripts of scripts.rs:17-31 through `Model/Macro` and `Model/MacroGen` | computation of the generator on the fixed sources |
| C65 | bit operators and shifts of `IntegerResult` | bit vectors against floor division by powers of two; false for left shifts (silent wrap-around) |
| C66 | signatures of module `func` (opcode.rs), `data_type.rs` against `Spec/Vm.step` | case analysis over opcodes with arbitrary predicates for type parameters; progress against an explicit list of reasons to fail; false for OP_NOTIF (no function) |
| C67 | recorded names (`make_tagged_op`) against `Spec/Recorded.RecordsOk` over `Spec/Named.exec` | each operation's record equals the tags on the tracked stacks after it (static), tracked stacks carry the run-time names (C60 simulation); induction over nested statements |
| C68 | acceptance by `GenerateScript` of scripts with conditionals and variants | progress of the generator, by induction on the script, along a family of successful named executions (one per variant and allowed sequence of branches) that agree about the names each statement finds; false for OP_DEPTH, OP_IFDUP, OP_NOTIF, `__` for new results, differing names in variants, unreached statements, contradictory conditions |
| C69 | `Model/MacroType`: the Rust variables of stack items, the generated calls of typed functions and rustc's check of them | final scope assigns one type to each variable (`checkRust_consistent`); the variables tracked for a variant have the types of the items on its run-time stacks, preserved by every statement (C66) and merged at conditionals; induction over nested statements. For scripts without variants the side conditions follow from distinct names (`prog_binds`: generated variables are fresh); for conditionals whose branches leave the same names and types (`typedAfter`, decidable) the types of the generated variables are static (`prog_static`, `Proofs/MacroTypedBalanced`); false for shadowed names and for operands whose type differs between variants |
| C70 | `Model/Address`: `toHuman/ofHuman`, `toSer/ofSer`, `fromHashPrefix`, `withPrefix` | text form reduces to parsing (C28, C54); binary form re-encodes, so equal exactly when the string was canonical; false for upper-case or colon prefixes built by hand (text) and for an inconsistent prefix/kind pair (binary) |
| C71 | no new code: `generate`, `inputNames`, address, builder, signing models together; `Spec/Separated`: execution with names in which an executed OP_CODESEPARATOR changes the script code | a second simulation (`Proofs/MacroSep`) of generated scripts by `runFrom`, with an environment per separator, composed with C63_p2sh_own_script; for balanced scripts `balanced_obeys` (`Proofs/MacroBalanced`) discharges the hypothesis on the run: always without variants, and with variants for executions that take only allowed branches (`ObeysScript`) |
| C72 | `Model/ByteArray` | pieces of an array as a recursive reading of the provenance; concatenation by cases, splitting by induction over the loop and the invariant `Cons` of C12 |
| C73 | `Model/Script` (`serializeOpsBA`, `deserializeOpsByteArray`), `Model/ByteArray` | parts of an array read off its recorded preimage; splitting at a boundary of parts keeps them (induction over the split loop), splitting inside the prefix leaves the rest; induction over the operations; the bytes from C18/C21 |
| C74 | `Model/CodecP` (the serialisation functions on arrays with provenance) against `Model/Codec` (on contents) | refinement: each codec with provenance agrees with the codec on contents (induction over the type, loops by induction); so all C15–C53 results about contents are about the real functions |
| C75 | `Model/CodecP`, `Model/Script` | splitting an array at a boundary between its pieces, at any nesting depth, keeps the pieces (induction over the provenance tree); then induction over the type |
| C76 | `Model/PreimageP` (`HashKind.digest`, `FixedP`, `UnhashedTxP.hashed`) | direct, pieces of a concatenation from C72 |
| C77 | `Model/PreimageP` (`buildPreimagesP`) against `Model/Tx` (`buildPreimages`) | refinement for the contents (loops by induction); provenance of the concatenation loops by induction from C75 |
| C78 | `Model/TxBuilder`; calls as data in `Props/Builder` | induction on the calls; the signing history of C19 |
| C79 | `Model/Equality` (`Op.beqP`, `TaggedOp.beq`, `RichTx.beq`) against views (`opView`, `txView`) | case analysis, induction on lists; witness for the serialisation of equal scripts |
| C80 | `Model/Serde`: serde's data model, the hand-written impls and the code derived for structs (reading from maps by name and from sequences), for every type with serde support; formats are characterised by three facts (`Format`) | closure of "writes and reads back", "reads independently of arrangement" and "writes the document" under options, lists, newtypes and structs; documents given separately in `Spec/Stored`; witness for the false case |
| C81 | `Tx.Consistent` for `UnhashedTx.hashed`, `Codec.tx`, `Serde.tx` | C80; scripts with the same bytes serialise the same; witnesses for the false cases |
| C82 | as C80 | closure of "panics only on a text that …" under the same constructions; exact condition for hashes |
| C83 | `Model/IntegerConv`: the twelve machine types by range, every conversion, mixed operator, comparison and text | reduction of each conversion to `Integer::new`, then C07, C08, C65; the order is false of the code outside the script range (`C83_order_fails`) |
| C84 | `Model/Ecc`: both implementations of the trait over the operations of the foreign crates (`Secp`); what is assumed of these is `Spec/Ecdsa` (a structure of laws, hypothesis of the theorems, met by a toy scheme) | case analysis; composition with C63 for spending |
| C85 | as C71 | statements before the only separator do not depend on signature checks, so the whole execution is one in the environment of the script code of the handed-out preimage; C63_preimages_are_checked for that environment; three witnesses that it fails for other placements of separators |
| C86 | `Model/Parse`: the syntax trees of `syn` as data types, `parse_attrs`, `parse_script_inputs`, `parse_docs`; `Spec/Source` says how settings, parameters and documentation are written; characters classes are parameters | the loops are folds over the written list; witnesses for repeated and bare variant attributes and panics |
| C87 | `parse_stmts` on syntax trees of bodies; `Spec/Source.Says` relates a body to what it says | mutual induction on statements and expressions; composition with C46 |
| C88 | `scriptMacro`: parsing and generation | composition of C86, C87, C61 and C68 |
| C89 | `Model/Profile`: the functions with arithmetic that can overflow, with the build profile as a parameter | debug instance equal to the other models; agreement through every operation; sums and products below 64 bits; witnesses that wrap around |
| C90 | `Model/MacroText`: parser, formatter interface and generator with statement texts; the formatter (`rustfmt`) is a parameter | erasure to the models without texts; invariant of the text counter over nested statements; the law `Spec/Text.FormatsEach` of the formatter is a hypothesis; file, line and column not modelled |
| C91 | `Model/Display`: `Display` and `Debug` of operations, scripts, arrays, opcodes; `Hash` of arrays | distinct shapes of the four kinds of texts, unique splitting at blanks, injectivity of hexadecimal and decimal notation; witnesses for the two ambiguities |
| C92 | `Model/Tx`, `Model/Codec` against `Spec/Raw`: raw transactions with size forms and tokens | a structure `Exact` (reading, inversion, rewriting) closed under the codec combinators; induction over types for rewriting; witness for the wrong id |
| C93 | `Model/Json` against `Spec/Compact` (all strings, data and arrays of a transaction) | invariant: lookup maps and tables agree and nothing is stored twice; what every export step adds; doubling documents as witness through C43_accepts |
| C94 | `Model/JsonSerde` (derived impls of the document types), `Model/JsonText` (`to_string`, `from_str`), against `Spec/JsonText` (grammar of RFC 8259 with values) and `Spec/JsonDoc` (layout; accepted documents) | the reader recognises exactly the grammar (fuel induction on the text length); closure lemmas `Reads` for records, lists, options; invariant of the export: indices point into the tables; composition with C42, C43, C80 |
| C95 | `Model/Derive` (`generate` on declarations; the generated statements; rustc's checks that matter; running them with local variables), against `Spec/Derive` (how structs are written, parts, reading in order) | the attribute loops recognise exactly the written forms; the local variables after the statements are the fields read in order; induction over the fields; for the library, unfolding |
| C96 | `Model/MacroItems` (`inputsItem`: the generated struct or enum; `inputOps`: its `Ops`), against `Spec/Items` (`expected` type, its values) | how often a field is recorded is counted; with the uniqueness `rustc` demands this is a filter; values by induction over the fields; the contract by composing C88 and C71; types (`Props/ItemsTyped`) by composing C88 and C69 (also its balanced form), with the declared types of a case computed by the same filter |
| C97 | `Model/Keys` (bytes fed to a `Hasher` by `Hash`, derived or not; derived `Ord`; `PartialEq for Address`), against total orders, numeric order of bytes | length prefixes and the `0xff` after texts make the fed bytes uniquely decodable; lexicographic order of equally long byte strings is the order of the numbers. False for addresses written differently (`C97_same_address_fails`) |
| C98 | `Model/Address` (as C28–C31) | an inserted value goes unnoticed exactly if it leaves the remainder after the letters before it as it is (`inserted_iff`), which is linear; lengths by C31; exchanged letters are a burst of C29. False in general (`C98_detected_fails`, `C98_no_panic_fails`, `C98_q_before_p_fails`) |
| C99 | `Model/TxBuilder`, `Ecc`, `Address`, `Tx`; the client program `pay` in `Props/Payment` | progress of the building loop (`buildLoop_returns`) from the condition that every possible estimate succeeds (`Estimable`), which holds for P2PKH inputs by a size bound; induction over the coins for adding and signing; then C84 for validity, C37 for the fee, C40 for completion. False without the conditions (`C99_amounts_fails`, `C99_fee_fails`) |
| C100 | the models of C99 for any `Signatory`; the client program `spend` in `Props/Spending`, a job being a coin with script, signatory and signing function | the estimate of every job succeeds with a size that bounds the signed script (`Job.Works`), so the loop of C99 returns; induction over the jobs for signing; then C85/C84 for key hashes, C63 for script hashes, and C96 from the macro source for contracts (`C100_contract_partial`, restrictions of C60) |
| C101 | `Model/RichBuilder`: the builder and signing functions with `TaggedOp` scripts and arrays with provenance; signatories see all of it; `Spec/Rich` erases to contents | refinement: every builder and signing function maps values with the same contents to values with the same contents (`Proofs/RichBuilder`), so C78, C99 and C100 apply to it; what is carried by induction over the jobs; through JSON by C94, from the contract source by C90 |
| C102 | `Model/RichBuilder` with `Model/Json`, `JsonText`; parties and signers in `Props/Offline` | invariant of prepared transactions (a recorded input describes its builder input, the preimages are those of builder and outputs); the preimages depend only on what `from_tx` restores (`Proofs/Relay`); C41 and C94 for taking over; simulation between signing at home and elsewhere, induction over the parties. False for `sign_input_dyn`, empty scripts and size-dependent signatories (`C102_*_fails`) |
| C103 | `Model/Slp` with the models of C100; `Spec/Tokens` says which outputs get tokens | C100 for the transaction; fixed outputs added first stay first whatever leftover outputs are kept (`known_prefix`); C44 for the message. The condition on the order is needed (`C103_leftover_before_fails`) |
| C104 | `Model/MacroDiag`: the generator again, with the full errors and the numbers of the statements; `Spec/Diag` says what a report means (`Truthful`, and its words, `message`): of the statement, the branches around it, and the runs of `Spec/Named` getting there (`visits`) | the reporting generator is the one of C60 with longer errors (`generate_link`); per kind of statement the report is true of tracked stacks (`Proofs/MacroReport`), and the states of the generator track every run getting to a statement (`Proofs/MacroReportProg`, by induction on the program, with the simulation of C60). False for OP_NOTIF (`C104_notif_fails`) and in words about the alternative stack (`C104_altstack_fails`) |

## What is modelled and what is not

| code | modelled in | not modelled |
|------|-------------|--------------|
| bitcoin-cash-base `encoding_utils.rs` | `Model/VarInt`, `Model/ScriptNum` | |
| `integer.rs` | `Model/Integer`, `Model/IntegerConv` | `Debug` |
| `byte_array.rs` | `Model/ByteArray`, `Model/Display` | `Arc`/`Cow` sharing, `Debug`; the feature `simple-bytearray` (the crate does not compile with it) |
| `op.rs`, `opcode.rs` | `Model/Opcode`, `Model/Script`, `Model/Equality`, `Model/Display` | documentation strings |
| `opcode.rs` behaviours, module `func`; `data_type.rs` | `Model/Behavior`, `Model/Func` | the mock values the typed functions return |
| bitcoin-cash `script.rs` | `Model/Script`, `Model/Display` | debugging tags of `TaggedOp` (erased; that equality ignores them is C79) |
| `bitcoin_code.rs`, `serializer.rs` | `Model/Codec` (contents), `Model/CodecP` (with provenance) | serde `Serializer` visitor plumbing (its composition is transcribed per type) |
| `tx.rs`, `tx_preimage.rs`, `sequence.rs` | `Model/Tx`; with provenance `Model/CodecP`, `Model/PreimageP` | |
| `hash.rs`, `pubkey.rs` | `Model/Hash`; digests with provenance `Model/PreimageP` | the hash functions (parameters) |
| `address.rs` | `Model/Address` | `Cow` borrowing |
| `destination.rs`, `scripts.rs` | `Model/Destination` | |
| `tx_builder.rs` | `Model/TxBuilder` (contents), `Model/RichBuilder` (with tags and provenance; C101 relates the two) | the plain model assumes that signatories look only at contents (`Spec/Rich.KindContents`), the rich one does not; `Box<dyn Any>` is an abstract type with a downcast function; user-supplied signatories are arbitrary functions that may panic |
| `serialize_json.rs` | `Model/Json`, `Model/JsonSerde`, `Model/JsonText`, `Model/Base64` | `serde_json` is transcribed (its two entry points) and `base64` is RFC 4648, not taken from their sources; the stack limit of the recursive import; which deserialisation error is reported |
| bitcoin-cash-code `lib.rs` | `Model/Derive` | `syn`'s parsing of the declaration; the compiler (its checks of the generated code are listed in `compiles`); hygiene of structs declared inside `macro_rules!` |
| bitcoin-cash-slp `lib.rs` | `Model/Slp`, `Model/Serde` | |
| serde impls and derives of all crates | `Model/Serde` (and `Model/Address`, `Model/Json`) | the binary formats (`bincode`, …; JSON texts are in `Model/JsonText`) and serde's derive macro, transcribed as reading by name or position; numbers with a fraction |
| bitcoin-cash-script-macro `ir.rs`, `parse.rs` | `Model/Macro`, `Model/Parse` | `syn`'s parsing of tokens into syntax trees, spans, token streams |
| `generate.rs`, `state.rs`, `gen_source.rs` | `Model/MacroGen`, `Model/MacroText`, `Model/MacroItems` (the inputs type and its `Ops`) | spans (file, line and column of operations), `rustfmt`, documentation tables, attributes of the generated function; the Rust variables and calls of typed functions are in `Model/MacroType` (not modelled there: move errors after `func::OP_PICK`/`OP_ROLL`, and integer-literal inference of pushed expressions, whose type is that of the pushed value); iteration order of hash maps is an arbitrary permutation |
| `bitcoin-cash-ecc` (`c_ecc.rs`, `rust_ecc.rs`), `ecc.rs` | `Model/Ecc` | the foreign crates `secp256k1`, `libsecp256k1` (operations are parameters, laws assumed in `Spec/Ecdsa`); feature selection in `polyfill.rs` |

Arithmetic overflow is a panic in the models (debug profile); a release build wraps around instead. `Model/Profile`
has the affected functions in both profiles (C89); the other theorems talk about runs without overflow.