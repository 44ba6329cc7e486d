{
 "Integer|.ok (a / 2 ^ (s+1))": {
  "note": "survived the first campaign: no property fixed shifts by value. C65 was added and the edit now fails (see the repeated entry).",
  "tightened": [
   "BCash.C65_shr_exact"
  ]
 },
 "Integer|.ok (a * 2 ^ s)": {
  "note": "survived the first campaign; C65 was added and the edit now fails.",
  "tightened": [
   "BCash.C65_shl_partial",
   "BCash.C65_shl_fails"
  ]
 },
 "TxBuilder|some []": {
  "note": "survived the first campaign: builder preimages were only compared with the preimage specification for given transactions. C63 ties them to the completed transaction; the edit now fails.",
  "tightened": [
   "BCash.C63_preimages_are_checked"
  ]
 },
 "TxBuilder|⟨i.input.prevOut, 0, i.sigHashFlags,": {
  "note": "survived the first campaign; fails since C63.",
  "tightened": [
   "BCash.C63_preimages_are_checked"
  ]
 },
 "TxBuilder|   b.inputs.length + 1)": {
  "note": "survived the first campaign; fails since C63 and C40_reference.",
  "tightened": [
   "BCash.C40_reference",
   "BCash.C63_p2pkh"
  ]
 },
 "Script|| pushByteArray a1 m1, pushByteArray a2 m2 => a1 == a2 && m1 == m2": {
  "note": "survived the third campaign; C79_operations added or strengthened to fix this; repeated in the fourth campaign.",
  "tightened": [
   "BCash.C79_operations"
  ]
 },
 "Json|(d, i) :: m.filter fun p => p.2 ≠ i": {
  "note": "survived: equivalent, data is inserted only if absent",
  "tightened": []
 },
 "Behavior|| OP_SWAP => o [T, T] [T, T] [1, 0] [untouched, moved]": {
  "note": "survived: only the number of roles was claimed. C57_roles_meaning was added and fails for this edit.",
  "tightened": [
   "BCash.C57_roles_meaning"
  ]
 },
 "Behavior|| OP_SIZE | OP_CHECKLOCKTIMEVERIFY => true": {
  "note": "survived the first campaign; fails since C60 and C57_retains_input.",
  "tightened": [
   "BCash.C57_retains_input",
   "BCash.C60_names_partial"
  ]
 },
 "Behavior|| OP_LSHIFT | OP_RSHIFT | OP_DIV |": {
  "note": "survived the first campaign; fails since C57_disabled.",
  "tightened": [
   "BCash.C57_disabled"
  ]
 },
 "Behavior|| OP_LSHIFT |": {
  "note": "survived: C57 speaks about opcodes with a behaviour only. C57_disabled and C66_coverage were added and fail for this edit.",
  "tightened": [
   "BCash.C57_disabled",
   "BCash.C66_coverage"
  ]
 },
 "MacroGen|o == .OP_0 ||": {
  "note": "survived: the macro rejects more; C60 speaks about accepted scripts",
  "tightened": []
 },
 "MacroGen|\"__id_\" ++ toString (n / 2)": {
  "note": "survived the third campaign; C69_plain added or strengthened to fix this; repeated in the fourth campaign.",
  "tightened": [
   "BCash.C69_plain"
  ]
 },
 "Address|then some .simpleLedger\n": {
  "note": "survived the third campaign; C70_kind added or strengthened to fix this; repeated in the fourth campaign.",
  "tightened": [
   "BCash.C70_kind"
  ]
 },
 "Address|pre .P2PKH (hash160 redeemBytes)": {
  "note": "survived the third campaign; C63_p2sh_own_script added or strengthened to fix this; repeated in the fourth campaign.",
  "tightened": [
   "BCash.C63_p2sh_own_script"
  ]
 },
 "Address|Address.fromHash a.prefixStr a.addrType a.hash": {
  "note": "survived the third campaign; C70_with_prefix added or strengthened to fix this; repeated in the fourth campaign.",
  "tightened": [
   "BCash.C70_with_prefix"
  ]
 },
 "Base64|0123456789-_": {
  "note": "survived the third campaign; C42_base64 added or strengthened to fix this; repeated in the fourth campaign.",
  "tightened": [
   "BCash.C42_base64"
  ]
 },
 "ByteArray|| mk d _ f _ => mk d (some name) f none": {
  "note": "survived the third campaign; C72_names added or strengthened to fix this; repeated in the fourth campaign.",
  "tightened": [
   "BCash.C72_names"
  ]
 },
 "ByteArray|| mk d n f p => mk d (name.or n) f p\n\n/-- `ByteArray::apply": {
  "note": "survived the third campaign; C72_names added or strengthened to fix this; repeated in the fourth campaign.",
  "tightened": [
   "BCash.C72_names"
  ]
 },
 "ByteArray|mk data none .plain none\n": {
  "note": "survived the third campaign; C72_names added or strengthened to fix this; repeated in the fourth campaign.",
  "tightened": [
   "BCash.C72_names"
  ]
 },
 "Codec|2 ^ 62 - 1": {
  "note": "survived the third campaign; C52_tx_panic_iff_partial added or strengthened to fix this; repeated in the fourth campaign.",
  "tightened": [
   "BCash.C52_tx_panic_iff_partial"
  ]
 },
 "Destination|| .address _ => none": {
  "note": "survived the third campaign; C26_address added or strengthened to fix this; repeated in the fourth campaign.",
  "tightened": [
   "BCash.C26_address"
  ]
 },
 "Destination|if a.addrType = .P2PKH then": {
  "note": "survived the third campaign; C64_p2pkh_checked added or strengthened to fix this; repeated in the fourth campaign.",
  "tightened": [
   "BCash.C64_p2pkh_checked"
  ]
 },
 "ScriptNum|if b then [0x01] else [0x00]": {
  "note": "survived the third campaign; C05_bool added or strengthened to fix this; repeated in the fourth campaign.",
  "tightened": [
   "BCash.C05_bool"
  ]
 },
 "Slp|slpAmountOpsFrom idx as": {
  "note": "survived the third campaign; C44_names added or strengthened to fix this; repeated in the fourth campaign.",
  "tightened": [
   "BCash.C44_names"
  ]
 },
 "Slp|slpAmountOpsFrom 1 amounts": {
  "note": "survived the third campaign; C44_names added or strengthened to fix this; repeated in the fourth campaign.",
  "tightened": [
   "BCash.C44_names"
  ]
 },
 "Tx|⟨t, sha256d raw.reverse, raw⟩": {
  "note": "survived the third campaign; C76_transaction_contents added or strengthened to fix this; repeated in the fourth campaign.",
  "tightened": [
   "BCash.C76_transaction_contents"
  ]
 },
 "Tx|⟨i.prevOut, i.sequence, flags, some i.script, i.value⟩": {
  "note": "survived the third campaign; C23_transaction and C77_transaction added or strengthened to fix this; repeated in the fourth campaign.",
  "tightened": [
   "BCash.C23_transaction",
   "BCash.C77_transaction"
  ]
 },
 "TxBuilder|.leftover DUST_AMOUNT (UInt64.ofNat (2 ^ 32 - 1)) 0 script": {
  "note": "survived the third campaign; C78_calls added or strengthened to fix this; repeated in the fourth campaign.",
  "tightened": [
   "BCash.C78_calls"
  ]
 },
 "TxBuilder|{ b with feePerKb := b.feePerKb }": {
  "note": "survived the third campaign; C78_calls added or strengthened to fix this; repeated in the fourth campaign.",
  "tightened": [
   "BCash.C78_calls"
  ]
 },
 "TxBuilder|List.replicate 1": {
  "note": "survived the third campaign; C78_placeholder added or strengthened to fix this; repeated in the fourth campaign.",
  "tightened": [
   "BCash.C78_placeholder"
  ]
 },
 "TxBuilder|| .multiple flags _ => flags.take 1": {
  "note": "survived the third campaign; C78_calls added or strengthened to fix this; repeated in the fourth campaign.",
  "tightened": [
   "BCash.C78_calls"
  ]
 },
 "TxBuilder|⟨version, [], [], lockTime, DEFAULT_FEE_PER_KB⟩": {
  "note": "survived the third campaign; C78_new added or strengthened to fix this; repeated in the fourth campaign.",
  "tightened": [
   "BCash.C78_new"
  ]
 },
 "TxBuilder|{ u.builder with outputs := u.outputs.map .knownValue }\n": {
  "note": "survived the third campaign; C78_into_builder added or strengthened to fix this; repeated in the fourth campaign.",
  "tightened": [
   "BCash.C78_into_builder"
  ]
 },
 "Serde|missing := none": {
  "note": "survived the fifth campaign: no theorem covered optional fields left out of a document; C80_arrangement now does, and fails on this edit.",
  "tightened": [
   "BCash.C80_arrangement"
  ]
 },
 "MacroType|true": {
  "note": "survived the fifth campaign: whether a generated function type-checks did not depend on which variants were possible in any theorem. C69_calls was added; the repeated edit fails.",
  "tightened": [
   "BCash.C69_calls"
  ]
 },
 "Slp|Hash.toVecLe t": {
  "note": "survived the fifth campaign: the byte order of the slice was in no theorem. C44_token_bytes was added; the repeated edit fails.",
  "tightened": [
   "BCash.C44_token_bytes"
  ]
 },
 "Profile|| release => some (x % 2 ^ 63)": {
  "note": "survived the seventh campaign: no theorem said what a release build computes beyond 64 bits. C89_release_build was added; the repeated edit fails.",
  "tightened": [
   "BCash.C89_release_build"
  ]
 },
 "Profile|| release => some 0": {
  "note": "survived the seventh campaign: no theorem said what a release build accepts for widths beyond 2^28 bytes. C89_release_width was added; the repeated edit fails.",
  "tightened": [
   "BCash.C89_release_width"
  ]
 },
 "Tx|ALL": {
  "note": "survived campaign 9: no theorem said which flags the default signature hash type has. C24_default_protects_all was added; the repeated edit fails.",
  "tightened": [
   "BCash.C24_default_protects_all"
  ]
 },
 "Keys|| .simpleLedger => leBytes 8 0": {
  "note": "survived campaign 10: two addresses of different known prefixes still differ in the hashed prefix text, so C97_addresses stays true. C97_kinds was added, which says it of the kinds themselves; the repeated edit fails.",
  "tightened": [
   "BCash.C97_kinds"
  ]
 },
 "Derive|| .other => .panic": {
  "note": "survived: nothing said what the derive does for items other than structs. C95_otherwise was added and the edit now fails.",
  "tightened": [
   "BCash.C95_otherwise"
  ]
 },
 "Hash|if h : s.length = 33 ∧ s.head? ≠ some 4 then some ⟨s, h.1⟩ else none": {
  "note": "survived: only accepted keys were fixed. C53_pubkey_slices was added (accepts exactly 33 bytes) and the edit now fails.",
  "tightened": [
   "BCash.C53_pubkey_slices"
  ]
 },
 "Integer|checked (-a) (.subOverflow 0 a)": {
  "note": "survived: negation of a minimal integer is never out of range, the error is unreachable; no claim is falsified",
  "tightened": []
 },
 "IntegerConv|| .u16, x => 0 ≤ x ∧ x ≤ 2 ^ 16": {
  "note": "survived: C83 was stated with the model's own ranges. C83_types was added (the range of each type as a literal interval) and the edit now fails.",
  "tightened": [
   "BCash.C83_types"
  ]
 },
 "IntegerConv|| .isize, x => -2 ^ w ≤ x ∧ x < 2 ^ w": {
  "note": "survived: C83 was stated with the model's own ranges. C83_types was added (the range of each type as a literal interval) and the edit now fails.",
  "tightened": [
   "BCash.C83_types"
  ]
 },
 "JsonSerde|.getD \"Plain\"": {
  "note": "survived: the default is never reached; no claim is falsified",
  "tightened": []
 },
 "JsonText|if n < 10 then 48 + n else 55 + n": {
  "note": "survived: the text is still JSON for the same value; no claim is falsified",
  "tightened": []
 },
 "JsonText|some ('[' :: commas (b.map fun x => decimal (x.toNat + 1)) ++ [']'])": {
  "note": "survived: byte values are never written by a stored type; no claim is falsified",
  "tightened": []
 },
 "Parse|| none => .panic": {
  "note": "survived: malformed arguments were not fixed. C86_arguments_errors_partial was added and the edit now fails.",
  "tightened": [
   "BCash.C86_arguments_errors_partial"
  ]
 },
 "Profile|some (2 ^ 32 - 1)": {
  "note": "survived: the claim compares release with debug where debug does not panic; the edit keeps that",
  "tightened": []
 },
 "Slp|⟨0, o.ops.map": {
  "note": "survived: equivalent, the value is overwritten where the output is used",
  "tightened": []
 },
 "RichBuilder|{ TaggedOp.fromOp t.op with pushedNames := some [some name] }": {
  "note": "survived: C101_made was added and the edit now fails.",
  "tightened": [
   "BCash.C101_made"
  ]
 },
 "RichBuilder|def fromOps (ops : ScriptP) : TaggedScript := (ops.map TaggedOp.fromOp).reverse": {
  "note": "survived: C101_made was added and the edit now fails.",
  "tightened": [
   "BCash.C101_made"
  ]
 },
 "RichBuilder|zero32P.named \"hashOutput\", 0": {
  "note": "survived: C101_placeholder was added and the edit now fails.",
  "tightened": [
   "BCash.C101_placeholder"
  ]
 },
 "Keys|| [], _ :: _ => .gt": {
  "note": "survived: equivalent, all keys have 33 bytes and the case is never reached",
  "tightened": []
 },
 "MacroDiag|v ++ \"` is named `\" ++ n' ++ \"` while in variant `\" ++ v' ++ \"` is named `\" ++ n": {
  "note": "survived or was caught by examples only: C104_words was added and the edit now fails.",
  "tightened": [
   "BCash.C104_words"
  ]
 },
 "MacroDiag|(if n.isNone then \" has\" else \" doesn't have\")": {
  "note": "survived or was caught by examples only: C104_words was added and the edit now fails.",
  "tightened": [
   "BCash.C104_words"
  ]
 },
 "MacroDiag|\"Expected \" ++ toString got ++ \" input names but got \" ++ toString expected": {
  "note": "survived or was caught by examples only: C104_words was added and the edit now fails.",
  "tightened": [
   "BCash.C104_words"
  ]
 },
 "MacroDiag|expected `\" ++ x ++ \"` but got `\" ++ actual": {
  "note": "survived or was caught by examples only: C104_words was added and the edit now fails.",
  "tightened": [
   "BCash.C104_words"
  ]
 },
 "MacroDiag|if a.isPositive then \"!\" else \"\"": {
  "note": "survived or was caught by examples only: C104_words was added and the edit now fails.",
  "tightened": [
   "BCash.C104_words"
  ]
 },
 "Func|  let V := var 3": {
  "note": "survived campaign 13 (merging two type parameters keeps the checks sound but refuses operands of different types). C66_general was added and the edit now fails.",
  "tightened": [
   "BCash.C66_general"
  ]
 },
 "Profile|    | release => some (x % 2 ^ 33)": {
  "note": "survived campaign 13: nothing said what a release build does with operands of more than 2^29 bytes. C89_decode_fails was added and the edit now fails.",
  "tightened": [
   "BCash.C89_decode_fails"
  ]
 },
 "Keys|  | .bitcoinCash => leBytes 9 0": {
  "note": "survived: the bytes fed to a hasher are only observable through equality of hashes; the theorems (equal keys feed equal bytes, different keys different bytes) are still true of the edited program.",
  "tightened": []
 }
}