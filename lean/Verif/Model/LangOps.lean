import Verif.Model.Basic

/-!
# The language specification of the package (`langspec.json`, `BuiltInLangSpec` in langspec.go)

The rows of the file that is embedded in the package, generated from it.  Left out: the texts for
people ("Doc", "DocExtra", "Groups"); "Version", which no row has; and the decoding of the JSON text
(langspec.go:40-47, 49-56), which is the decoder of the Go library.
-/

namespace Teal

/-- `LangOp` (langspec.go:14-29) without the texts for people. -/
structure LangOp where
  opcode : Nat
  name : Bytes
  args : Bytes
  returns : Bytes
  size : Nat
  argEnum : List Bytes
  argEnumTypes : Bytes
  note : Bytes
deriving DecidableEq

/-- "EvalMaxVersion" (langspec.json:2). -/
def langVersion : Nat := 8

/-- "ArgEnum" of `txn` (langspec.json, the row at line 543). -/
def enumTxn : List Bytes := [b!"Sender", b!"Fee", b!"FirstValid", b!"FirstValidTime", b!"LastValid",
  b!"Note", b!"Lease", b!"Receiver", b!"Amount", b!"CloseRemainderTo", b!"VotePK", b!"SelectionPK",
  b!"VoteFirst", b!"VoteLast", b!"VoteKeyDilution", b!"Type", b!"TypeEnum", b!"XferAsset", b!"AssetAmount",
  b!"AssetSender", b!"AssetReceiver", b!"AssetCloseTo", b!"GroupIndex", b!"TxID", b!"ApplicationID",
  b!"OnCompletion", b!"ApplicationArgs", b!"NumAppArgs", b!"Accounts", b!"NumAccounts", b!"ApprovalProgram",
  b!"ClearStateProgram", b!"RekeyTo", b!"ConfigAsset", b!"ConfigAssetTotal", b!"ConfigAssetDecimals",
  b!"ConfigAssetDefaultFrozen", b!"ConfigAssetUnitName", b!"ConfigAssetName", b!"ConfigAssetURL",
  b!"ConfigAssetMetadataHash", b!"ConfigAssetManager", b!"ConfigAssetReserve", b!"ConfigAssetFreeze",
  b!"ConfigAssetClawback", b!"FreezeAsset", b!"FreezeAssetAccount", b!"FreezeAssetFrozen", b!"Assets",
  b!"NumAssets", b!"Applications", b!"NumApplications", b!"GlobalNumUint", b!"GlobalNumByteSlice",
  b!"LocalNumUint", b!"LocalNumByteSlice", b!"ExtraProgramPages", b!"Nonparticipation", b!"Logs",
  b!"NumLogs", b!"CreatedAssetID", b!"CreatedApplicationID", b!"LastLog", b!"StateProofPK",
  b!"ApprovalProgramPages", b!"NumApprovalProgramPages", b!"ClearStateProgramPages",
  b!"NumClearStateProgramPages"]

/-- "ArgEnum" of `global` (langspec.json, the row at line 625). -/
def enumGlobal : List Bytes := [b!"MinTxnFee", b!"MinBalance", b!"MaxTxnLife", b!"ZeroAddress",
  b!"GroupSize", b!"LogicSigVersion", b!"Round", b!"LatestTimestamp", b!"CurrentApplicationID",
  b!"CreatorAddress", b!"CurrentApplicationAddress", b!"GroupID", b!"OpcodeBudget", b!"CallerApplicationID",
  b!"CallerApplicationAddress"]

/-- "ArgEnum" of `txna` (langspec.json, the row at line 759). -/
def enumTxna : List Bytes := [b!"ApplicationArgs", b!"Accounts", b!"Assets", b!"Applications", b!"Logs",
  b!"ApprovalProgramPages", b!"ClearStateProgramPages"]

/-- "ArgEnum" of `asset_holding_get` (langspec.json, the row at line 1455). -/
def enumAssetHoldingGet : List Bytes := [b!"AssetBalance", b!"AssetFrozen"]

/-- "ArgEnum" of `asset_params_get` (langspec.json, the row at line 1473). -/
def enumAssetParamsGet : List Bytes := [b!"AssetTotal", b!"AssetDecimals", b!"AssetDefaultFrozen",
  b!"AssetUnitName", b!"AssetName", b!"AssetURL", b!"AssetMetadataHash", b!"AssetManager", b!"AssetReserve",
  b!"AssetFreeze", b!"AssetClawback", b!"AssetCreator"]

/-- "ArgEnum" of `app_params_get` (langspec.json, the row at line 1501). -/
def enumAppParamsGet : List Bytes := [b!"AppApprovalProgram", b!"AppClearStateProgram", b!"AppGlobalNumUint",
  b!"AppGlobalNumByteSlice", b!"AppLocalNumUint", b!"AppLocalNumByteSlice", b!"AppExtraProgramPages",
  b!"AppCreator", b!"AppAddress"]

/-- "ArgEnum" of `acct_params_get` (langspec.json, the row at line 1526). -/
def enumAcctParamsGet : List Bytes := [b!"AcctBalance", b!"AcctMinBalance", b!"AcctAuthAddr",
  b!"AcctTotalNumUint", b!"AcctTotalNumByteSlice", b!"AcctTotalExtraAppPages", b!"AcctTotalAppsCreated",
  b!"AcctTotalAppsOptedIn", b!"AcctTotalAssetsCreated", b!"AcctTotalAssets", b!"AcctTotalBoxes",
  b!"AcctTotalBoxBytes"]

/-- "ArgEnum" of `itxn_field` (langspec.json, the row at line 1996). -/
def enumItxnField : List Bytes := [b!"Sender", b!"Fee", b!"Note", b!"Receiver", b!"Amount",
  b!"CloseRemainderTo", b!"VotePK", b!"SelectionPK", b!"VoteFirst", b!"VoteLast", b!"VoteKeyDilution",
  b!"Type", b!"TypeEnum", b!"XferAsset", b!"AssetAmount", b!"AssetSender", b!"AssetReceiver",
  b!"AssetCloseTo", b!"ApplicationID", b!"OnCompletion", b!"ApplicationArgs", b!"Accounts",
  b!"ApprovalProgram", b!"ClearStateProgram", b!"RekeyTo", b!"ConfigAsset", b!"ConfigAssetTotal",
  b!"ConfigAssetDecimals", b!"ConfigAssetDefaultFrozen", b!"ConfigAssetUnitName", b!"ConfigAssetName",
  b!"ConfigAssetURL", b!"ConfigAssetMetadataHash", b!"ConfigAssetManager", b!"ConfigAssetReserve",
  b!"ConfigAssetFreeze", b!"ConfigAssetClawback", b!"FreezeAsset", b!"FreezeAssetAccount",
  b!"FreezeAssetFrozen", b!"Assets", b!"Applications", b!"GlobalNumUint", b!"GlobalNumByteSlice",
  b!"LocalNumUint", b!"LocalNumByteSlice", b!"ExtraProgramPages", b!"Nonparticipation", b!"StateProofPK",
  b!"ApprovalProgramPages", b!"ClearStateProgramPages"]

/-- "Ops" of the file: the comment of a row gives its first line in langspec.json. -/
def langOps : List LangOp := [
  ⟨0, b!"err", b!"", b!"", 1, [], b!"", b!""⟩ /- 5 -/,
  ⟨1, b!"sha256", b!"B", b!"B", 1, [], b!"", b!""⟩ /- 14 -/,
  ⟨2, b!"keccak256", b!"B", b!"B", 1, [], b!"", b!""⟩ /- 25 -/,
  ⟨3, b!"sha512_256", b!"B", b!"B", 1, [], b!"", b!""⟩ /- 36 -/,
  ⟨4, b!"ed25519verify", b!"BBB", b!"U", 1, [], b!"", b!""⟩ /- 47 -/,
  ⟨5, b!"ecdsa_verify", b!"BBBBB", b!"U", 2, [], b!"", b!"{uint8 curve index}"⟩ /- 59 -/,
  ⟨6, b!"ecdsa_pk_decompress", b!"B", b!"BB", 2, [], b!"", b!"{uint8 curve index}"⟩ /- 72 -/,
  ⟨7, b!"ecdsa_pk_recover", b!"BUBB", b!"BB", 2, [], b!"", b!"{uint8 curve index}"⟩ /- 85 -/,
  ⟨8, b!"+", b!"UU", b!"U", 1, [], b!"", b!""⟩ /- 98 -/,
  ⟨9, b!"-", b!"UU", b!"U", 1, [], b!"", b!""⟩ /- 110 -/,
  ⟨10, b!"/", b!"UU", b!"U", 1, [], b!"", b!""⟩ /- 121 -/,
  ⟨11, b!"*", b!"UU", b!"U", 1, [], b!"", b!""⟩ /- 133 -/,
  ⟨12, b!"<", b!"UU", b!"U", 1, [], b!"", b!""⟩ /- 145 -/,
  ⟨13, b!">", b!"UU", b!"U", 1, [], b!"", b!""⟩ /- 156 -/,
  ⟨14, b!"<=", b!"UU", b!"U", 1, [], b!"", b!""⟩ /- 167 -/,
  ⟨15, b!">=", b!"UU", b!"U", 1, [], b!"", b!""⟩ /- 178 -/,
  ⟨16, b!"&&", b!"UU", b!"U", 1, [], b!"", b!""⟩ /- 189 -/,
  ⟨17, b!"||", b!"UU", b!"U", 1, [], b!"", b!""⟩ /- 200 -/,
  ⟨18, b!"==", b!"..", b!"U", 1, [], b!"", b!""⟩ /- 211 -/,
  ⟨19, b!"!=", b!"..", b!"U", 1, [], b!"", b!""⟩ /- 222 -/,
  ⟨20, b!"!", b!"U", b!"U", 1, [], b!"", b!""⟩ /- 233 -/,
  ⟨21, b!"len", b!"B", b!"U", 1, [], b!"", b!""⟩ /- 244 -/,
  ⟨22, b!"itob", b!"U", b!"B", 1, [], b!"", b!""⟩ /- 255 -/,
  ⟨23, b!"btoi", b!"B", b!"U", 1, [], b!"", b!""⟩ /- 266 -/,
  ⟨24, b!"%", b!"UU", b!"U", 1, [], b!"", b!""⟩ /- 278 -/,
  ⟨25, b!"|", b!"UU", b!"U", 1, [], b!"", b!""⟩ /- 289 -/,
  ⟨26, b!"&", b!"UU", b!"U", 1, [], b!"", b!""⟩ /- 300 -/,
  ⟨27, b!"^", b!"UU", b!"U", 1, [], b!"", b!""⟩ /- 311 -/,
  ⟨28, b!"~", b!"U", b!"U", 1, [], b!"", b!""⟩ /- 322 -/,
  ⟨29, b!"mulw", b!"UU", b!"UU", 1, [], b!"", b!""⟩ /- 333 -/,
  ⟨30, b!"addw", b!"UU", b!"UU", 1, [], b!"", b!""⟩ /- 344 -/,
  ⟨31, b!"divmodw", b!"UUUU", b!"UUUU", 1, [], b!"", b!""⟩ /- 355 -/,
  ⟨32, b!"intcblock", b!"", b!"", 0, [], b!"", b!"{varuint count} [{varuint value}, ...]"⟩ /- 367 -/,
  ⟨33, b!"intc", b!"", b!"U", 2, [], b!"", b!"{uint8 int constant index}"⟩ /- 378 -/,
  ⟨34, b!"intc_0", b!"", b!"U", 1, [], b!"", b!""⟩ /- 389 -/,
  ⟨35, b!"intc_1", b!"", b!"U", 1, [], b!"", b!""⟩ /- 399 -/,
  ⟨36, b!"intc_2", b!"", b!"U", 1, [], b!"", b!""⟩ /- 409 -/,
  ⟨37, b!"intc_3", b!"", b!"U", 1, [], b!"", b!""⟩ /- 419 -/,
  ⟨38, b!"bytecblock", b!"", b!"", 0, [], b!"", b!"{varuint count} [({varuint value length} bytes), ...]"⟩ /- 429 -/,
  ⟨39, b!"bytec", b!"", b!"B", 2, [], b!"", b!"{uint8 byte constant index}"⟩ /- 440 -/,
  ⟨40, b!"bytec_0", b!"", b!"B", 1, [], b!"", b!""⟩ /- 451 -/,
  ⟨41, b!"bytec_1", b!"", b!"B", 1, [], b!"", b!""⟩ /- 461 -/,
  ⟨42, b!"bytec_2", b!"", b!"B", 1, [], b!"", b!""⟩ /- 471 -/,
  ⟨43, b!"bytec_3", b!"", b!"B", 1, [], b!"", b!""⟩ /- 481 -/,
  ⟨44, b!"arg", b!"", b!"B", 2, [], b!"", b!"{uint8 arg index N}"⟩ /- 491 -/,
  ⟨45, b!"arg_0", b!"", b!"B", 1, [], b!"", b!""⟩ /- 502 -/,
  ⟨46, b!"arg_1", b!"", b!"B", 1, [], b!"", b!""⟩ /- 512 -/,
  ⟨47, b!"arg_2", b!"", b!"B", 1, [], b!"", b!""⟩ /- 522 -/,
  ⟨48, b!"arg_3", b!"", b!"B", 1, [], b!"", b!""⟩ /- 532 -/,
  ⟨49, b!"txn", b!"", b!".", 2, enumTxn, b!"BUUUUBBBUBBBUUUBUUUBBBUBUUBUBUBBBUUUUBBBBBBBBUBUUUUUUUUUUUBUUUBBBUBU", b!"{uint8 transaction field index}"⟩ /- 542 -/,
  ⟨50, b!"global", b!"", b!".", 2, enumGlobal, b!"UUUBUUUUUBBBUUB", b!"{uint8 global field index}"⟩ /- 624 -/,
  ⟨51, b!"gtxn", b!"", b!".", 3, enumTxn, b!"BUUUUBBBUBBBUUUBUUUBBBUBUUBUBUBBBUUUUBBBBBBBBUBUUUUUUUUUUUBUUUBBBUBU", b!"{uint8 transaction group index} {uint8 transaction field index}"⟩ /- 653 -/,
  ⟨52, b!"load", b!"", b!".", 2, [], b!"", b!"{uint8 position in scratch space to load from}"⟩ /- 736 -/,
  ⟨53, b!"store", b!".", b!"", 2, [], b!"", b!"{uint8 position in scratch space to store to}"⟩ /- 747 -/,
  ⟨54, b!"txna", b!"", b!".", 3, enumTxna, b!"BBUUBBB", b!"{uint8 transaction field index} {uint8 transaction field array index}"⟩ /- 758 -/,
  ⟨55, b!"gtxna", b!"", b!".", 4, enumTxna, b!"BBUUBBB", b!"{uint8 transaction group index} {uint8 transaction field index} {uint8 transaction field array index}"⟩ /- 779 -/,
  ⟨56, b!"gtxns", b!"U", b!".", 2, enumTxn, b!"BUUUUBBBUBBBUUUBUUUBBBUBUUBUBUBBBUUUUBBBBBBBBUBUUUUUUUUUUUBUUUBBBUBU", b!"{uint8 transaction field index}"⟩ /- 800 -/,
  ⟨57, b!"gtxnsa", b!"U", b!".", 3, enumTxna, b!"BBUUBBB", b!"{uint8 transaction field index} {uint8 transaction field array index}"⟩ /- 884 -/,
  ⟨58, b!"gload", b!"", b!".", 3, [], b!"", b!"{uint8 transaction group index} {uint8 position in scratch space to load from}"⟩ /- 906 -/,
  ⟨59, b!"gloads", b!"U", b!".", 2, [], b!"", b!"{uint8 position in scratch space to load from}"⟩ /- 918 -/,
  ⟨60, b!"gaid", b!"", b!"U", 2, [], b!"", b!"{uint8 transaction group index}"⟩ /- 931 -/,
  ⟨61, b!"gaids", b!"U", b!"U", 1, [], b!"", b!""⟩ /- 943 -/,
  ⟨62, b!"loads", b!"U", b!".", 1, [], b!"", b!""⟩ /- 955 -/,
  ⟨63, b!"stores", b!"U.", b!"", 1, [], b!"", b!""⟩ /- 966 -/,
  ⟨64, b!"bnz", b!"U", b!"", 3, [], b!"", b!"{int16 branch offset, big-endian}"⟩ /- 976 -/,
  ⟨65, b!"bz", b!"U", b!"", 3, [], b!"", b!"{int16 branch offset, big-endian}"⟩ /- 988 -/,
  ⟨66, b!"b", b!"", b!"", 3, [], b!"", b!"{int16 branch offset, big-endian}"⟩ /- 1000 -/,
  ⟨67, b!"return", b!"U", b!"", 1, [], b!"", b!""⟩ /- 1011 -/,
  ⟨68, b!"assert", b!"U", b!"", 1, [], b!"", b!""⟩ /- 1021 -/,
  ⟨69, b!"bury", b!".", b!"", 2, [], b!"", b!"{uint8 depth}"⟩ /- 1031 -/,
  ⟨70, b!"popn", b!"", b!"", 2, [], b!"", b!"{uint8 stack depth}"⟩ /- 1042 -/,
  ⟨71, b!"dupn", b!".", b!"", 2, [], b!"", b!"{uint8 copy count}"⟩ /- 1052 -/,
  ⟨72, b!"pop", b!".", b!"", 1, [], b!"", b!""⟩ /- 1063 -/,
  ⟨73, b!"dup", b!".", b!"..", 1, [], b!"", b!""⟩ /- 1073 -/,
  ⟨74, b!"dup2", b!"..", b!"....", 1, [], b!"", b!""⟩ /- 1084 -/,
  ⟨75, b!"dig", b!".", b!"..", 2, [], b!"", b!"{uint8 depth}"⟩ /- 1095 -/,
  ⟨76, b!"swap", b!"..", b!"..", 1, [], b!"", b!""⟩ /- 1107 -/,
  ⟨77, b!"select", b!"..U", b!".", 1, [], b!"", b!""⟩ /- 1118 -/,
  ⟨78, b!"cover", b!".", b!".", 2, [], b!"", b!"{uint8 depth}"⟩ /- 1129 -/,
  ⟨79, b!"uncover", b!".", b!".", 2, [], b!"", b!"{uint8 depth}"⟩ /- 1141 -/,
  ⟨80, b!"concat", b!"BB", b!"B", 1, [], b!"", b!""⟩ /- 1153 -/,
  ⟨81, b!"substring", b!"B", b!"B", 3, [], b!"", b!"{uint8 start position} {uint8 end position}"⟩ /- 1165 -/,
  ⟨82, b!"substring3", b!"BUU", b!"B", 1, [], b!"", b!""⟩ /- 1177 -/,
  ⟨83, b!"getbit", b!".U", b!"U", 1, [], b!"", b!""⟩ /- 1188 -/,
  ⟨84, b!"setbit", b!".UU", b!".", 1, [], b!"", b!""⟩ /- 1200 -/,
  ⟨85, b!"getbyte", b!"BU", b!"U", 1, [], b!"", b!""⟩ /- 1212 -/,
  ⟨86, b!"setbyte", b!"BUU", b!"B", 1, [], b!"", b!""⟩ /- 1223 -/,
  ⟨87, b!"extract", b!"B", b!"B", 3, [], b!"", b!"{uint8 start position} {uint8 length}"⟩ /- 1234 -/,
  ⟨88, b!"extract3", b!"BUU", b!"B", 1, [], b!"", b!""⟩ /- 1246 -/,
  ⟨89, b!"extract_uint16", b!"BU", b!"U", 1, [], b!"", b!""⟩ /- 1257 -/,
  ⟨90, b!"extract_uint32", b!"BU", b!"U", 1, [], b!"", b!""⟩ /- 1268 -/,
  ⟨91, b!"extract_uint64", b!"BU", b!"U", 1, [], b!"", b!""⟩ /- 1279 -/,
  ⟨92, b!"replace2", b!"BB", b!"B", 2, [], b!"", b!"{uint8 start position}"⟩ /- 1290 -/,
  ⟨93, b!"replace3", b!"BUB", b!"B", 1, [], b!"", b!""⟩ /- 1302 -/,
  ⟨94, b!"base64_decode", b!"B", b!"B", 2, [], b!"", b!"{uint8 encoding index}"⟩ /- 1313 -/,
  ⟨95, b!"json_ref", b!"BB", b!".", 2, [], b!"", b!"{uint8 return type}"⟩ /- 1326 -/,
  ⟨96, b!"balance", b!".", b!"U", 1, [], b!"", b!""⟩ /- 1339 -/,
  ⟨97, b!"app_opted_in", b!".U", b!"U", 1, [], b!"", b!""⟩ /- 1351 -/,
  ⟨98, b!"app_local_get", b!".B", b!".", 1, [], b!"", b!""⟩ /- 1363 -/,
  ⟨99, b!"app_local_get_ex", b!".UB", b!".U", 1, [], b!"", b!""⟩ /- 1375 -/,
  ⟨100, b!"app_global_get", b!"B", b!".", 1, [], b!"", b!""⟩ /- 1387 -/,
  ⟨101, b!"app_global_get_ex", b!"UB", b!".U", 1, [], b!"", b!""⟩ /- 1399 -/,
  ⟨102, b!"app_local_put", b!".B.", b!"", 1, [], b!"", b!""⟩ /- 1411 -/,
  ⟨103, b!"app_global_put", b!"B.", b!"", 1, [], b!"", b!""⟩ /- 1422 -/,
  ⟨104, b!"app_local_del", b!".B", b!"", 1, [], b!"", b!""⟩ /- 1432 -/,
  ⟨105, b!"app_global_del", b!"B", b!"", 1, [], b!"", b!""⟩ /- 1443 -/,
  ⟨112, b!"asset_holding_get", b!".U", b!".U", 2, enumAssetHoldingGet, b!"UU", b!"{uint8 asset holding field index}"⟩ /- 1454 -/,
  ⟨113, b!"asset_params_get", b!"U", b!".U", 2, enumAssetParamsGet, b!"UUUBBBBBBBBB", b!"{uint8 asset params field index}"⟩ /- 1472 -/,
  ⟨114, b!"app_params_get", b!"U", b!".U", 2, enumAppParamsGet, b!"BBUUUUUBB", b!"{uint8 app params field index}"⟩ /- 1500 -/,
  ⟨115, b!"acct_params_get", b!".", b!".U", 2, enumAcctParamsGet, b!"UUBUUUUUUUUU", b!"{uint8 account params field index}"⟩ /- 1525 -/,
  ⟨120, b!"min_balance", b!".", b!"U", 1, [], b!"", b!""⟩ /- 1552 -/,
  ⟨128, b!"pushbytes", b!"", b!"B", 0, [], b!"", b!"{varuint length} {bytes}"⟩ /- 1564 -/,
  ⟨129, b!"pushint", b!"", b!"U", 0, [], b!"", b!"{varuint int}"⟩ /- 1576 -/,
  ⟨130, b!"pushbytess", b!"", b!"", 0, [], b!"", b!"{varuint count} [({varuint value length} bytes), ...]"⟩ /- 1588 -/,
  ⟨131, b!"pushints", b!"", b!"", 0, [], b!"", b!"{varuint count} [{varuint value}, ...]"⟩ /- 1599 -/,
  ⟨132, b!"ed25519verify_bare", b!"BBB", b!"U", 1, [], b!"", b!""⟩ /- 1610 -/,
  ⟨136, b!"callsub", b!"", b!"", 3, [], b!"", b!"{int16 branch offset, big-endian}"⟩ /- 1621 -/,
  ⟨137, b!"retsub", b!"", b!"", 1, [], b!"", b!""⟩ /- 1632 -/,
  ⟨138, b!"proto", b!"", b!"", 3, [], b!"", b!"{uint8 arguments} {uint8 return values}"⟩ /- 1642 -/,
  ⟨139, b!"frame_dig", b!"", b!".", 2, [], b!"", b!"{int8 frame slot}"⟩ /- 1653 -/,
  ⟨140, b!"frame_bury", b!".", b!"", 2, [], b!"", b!"{int8 frame slot}"⟩ /- 1664 -/,
  ⟨141, b!"switch", b!"U", b!"", 0, [], b!"", b!"{uint8 branch count} [{int16 branch offset, big-endian}, ...]"⟩ /- 1675 -/,
  ⟨142, b!"match", b!"", b!"", 0, [], b!"", b!"{uint8 branch count} [{int16 branch offset, big-endian}, ...]"⟩ /- 1686 -/,
  ⟨144, b!"shl", b!"UU", b!"U", 1, [], b!"", b!""⟩ /- 1697 -/,
  ⟨145, b!"shr", b!"UU", b!"U", 1, [], b!"", b!""⟩ /- 1708 -/,
  ⟨146, b!"sqrt", b!"U", b!"U", 1, [], b!"", b!""⟩ /- 1719 -/,
  ⟨147, b!"bitlen", b!".", b!"U", 1, [], b!"", b!""⟩ /- 1730 -/,
  ⟨148, b!"exp", b!"UU", b!"U", 1, [], b!"", b!""⟩ /- 1742 -/,
  ⟨149, b!"expw", b!"UU", b!"UU", 1, [], b!"", b!""⟩ /- 1753 -/,
  ⟨150, b!"bsqrt", b!"B", b!"B", 1, [], b!"", b!""⟩ /- 1764 -/,
  ⟨151, b!"divw", b!"UUU", b!"U", 1, [], b!"", b!""⟩ /- 1775 -/,
  ⟨152, b!"sha3_256", b!"B", b!"B", 1, [], b!"", b!""⟩ /- 1787 -/,
  ⟨160, b!"b+", b!"BB", b!"B", 1, [], b!"", b!""⟩ /- 1798 -/,
  ⟨161, b!"b-", b!"BB", b!"B", 1, [], b!"", b!""⟩ /- 1809 -/,
  ⟨162, b!"b/", b!"BB", b!"B", 1, [], b!"", b!""⟩ /- 1820 -/,
  ⟨163, b!"b*", b!"BB", b!"B", 1, [], b!"", b!""⟩ /- 1831 -/,
  ⟨164, b!"b<", b!"BB", b!"U", 1, [], b!"", b!""⟩ /- 1842 -/,
  ⟨165, b!"b>", b!"BB", b!"U", 1, [], b!"", b!""⟩ /- 1853 -/,
  ⟨166, b!"b<=", b!"BB", b!"U", 1, [], b!"", b!""⟩ /- 1864 -/,
  ⟨167, b!"b>=", b!"BB", b!"U", 1, [], b!"", b!""⟩ /- 1875 -/,
  ⟨168, b!"b==", b!"BB", b!"U", 1, [], b!"", b!""⟩ /- 1886 -/,
  ⟨169, b!"b!=", b!"BB", b!"U", 1, [], b!"", b!""⟩ /- 1897 -/,
  ⟨170, b!"b%", b!"BB", b!"B", 1, [], b!"", b!""⟩ /- 1908 -/,
  ⟨171, b!"b|", b!"BB", b!"B", 1, [], b!"", b!""⟩ /- 1919 -/,
  ⟨172, b!"b&", b!"BB", b!"B", 1, [], b!"", b!""⟩ /- 1930 -/,
  ⟨173, b!"b^", b!"BB", b!"B", 1, [], b!"", b!""⟩ /- 1941 -/,
  ⟨174, b!"b~", b!"B", b!"B", 1, [], b!"", b!""⟩ /- 1952 -/,
  ⟨175, b!"bzero", b!"U", b!"B", 1, [], b!"", b!""⟩ /- 1963 -/,
  ⟨176, b!"log", b!"B", b!"", 1, [], b!"", b!""⟩ /- 1974 -/,
  ⟨177, b!"itxn_begin", b!"", b!"", 1, [], b!"", b!""⟩ /- 1985 -/,
  ⟨178, b!"itxn_field", b!".", b!"", 2, enumItxnField, b!"BUBBUBBBUUUBUUUBBBUUBBBBBUUUUBBBBBBBBUBUUUUUUUUUBBB", b!"{uint8 transaction field index}"⟩ /- 1995 -/,
  ⟨179, b!"itxn_submit", b!"", b!"", 1, [], b!"", b!""⟩ /- 2061 -/,
  ⟨180, b!"itxn", b!"", b!".", 2, enumTxn, b!"BUUUUBBBUBBBUUUBUUUBBBUBUUBUBUBBBUUUUBBBBBBBBUBUUUUUUUUUUUBUUUBBBUBU", b!"{uint8 transaction field index}"⟩ /- 2071 -/,
  ⟨181, b!"itxna", b!"", b!".", 3, enumTxna, b!"BBUUBBB", b!"{uint8 transaction field index} {uint8 transaction field array index}"⟩ /- 2153 -/,
  ⟨182, b!"itxn_next", b!"", b!"", 1, [], b!"", b!""⟩ /- 2174 -/,
  ⟨183, b!"gitxn", b!"", b!".", 3, enumTxn, b!"BUUUUBBBUBBBUUUBUUUBBBUBUUBUBUBBBUUUUBBBBBBBBUBUUUUUUUUUUUBUUUBBBUBU", b!"{uint8 transaction group index} {uint8 transaction field index}"⟩ /- 2184 -/,
  ⟨184, b!"gitxna", b!"", b!".", 4, enumTxna, b!"BBUUBBB", b!"{uint8 transaction group index} {uint8 transaction field index} {uint8 transaction field array index}"⟩ /- 2266 -/,
  ⟨185, b!"box_create", b!"BU", b!"U", 1, [], b!"", b!""⟩ /- 2287 -/,
  ⟨186, b!"box_extract", b!"BUU", b!"B", 1, [], b!"", b!""⟩ /- 2299 -/,
  ⟨187, b!"box_replace", b!"BUB", b!"", 1, [], b!"", b!""⟩ /- 2310 -/,
  ⟨188, b!"box_del", b!"B", b!"U", 1, [], b!"", b!""⟩ /- 2320 -/,
  ⟨189, b!"box_len", b!"B", b!"UU", 1, [], b!"", b!""⟩ /- 2331 -/,
  ⟨190, b!"box_get", b!"B", b!"BU", 1, [], b!"", b!""⟩ /- 2342 -/,
  ⟨191, b!"box_put", b!"BB", b!"", 1, [], b!"", b!""⟩ /- 2354 -/,
  ⟨192, b!"txnas", b!"U", b!".", 2, enumTxna, b!"BBUUBBB", b!"{uint8 transaction field index}"⟩ /- 2365 -/,
  ⟨193, b!"gtxnas", b!"U", b!".", 3, enumTxna, b!"BBUUBBB", b!"{uint8 transaction group index} {uint8 transaction field index}"⟩ /- 2387 -/,
  ⟨194, b!"gtxnsas", b!"UU", b!".", 2, enumTxna, b!"BBUUBBB", b!"{uint8 transaction field index}"⟩ /- 2409 -/,
  ⟨195, b!"args", b!"U", b!"B", 1, [], b!"", b!""⟩ /- 2431 -/,
  ⟨196, b!"gloadss", b!"UU", b!".", 1, [], b!"", b!""⟩ /- 2442 -/,
  ⟨197, b!"itxnas", b!"U", b!".", 2, [], b!"", b!"{uint8 transaction field index}"⟩ /- 2453 -/,
  ⟨198, b!"gitxnas", b!"U", b!".", 3, [], b!"", b!"{uint8 transaction group index} {uint8 transaction field index}"⟩ /- 2465 -/,
  ⟨208, b!"vrf_verify", b!"BBB", b!"BU", 2, [], b!"", b!"{uint8 parameters index}"⟩ /- 2477 -/,
  ⟨209, b!"block", b!"U", b!".", 2, [], b!"", b!"{uint8 block field}"⟩ /- 2490 -/]

end Teal
