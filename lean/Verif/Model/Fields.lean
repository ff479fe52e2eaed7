import Verif.Model.Literals

/-!
# Field groups (`go_algorand.go`) and the field readers (`parser.go`)

The tables below were transcribed from go_algorand.go by a script (enumerations, `…Specs`
arrays and the `stringer` tables), one definition per Go table.
The text of notes and documentation is not modelled.
-/

namespace Teal

/-- `StackType` (go_algorand.go:392-406). -/
inductive StackType where
  | none | any | uint64 | bytes
deriving DecidableEq, Repr

/-- A Go map, as an association list in which the first entry for a key counts. -/
abbrev GoMap (α : Type) := List (Bytes × α)

/-- `m[k]` with the `ok` result. -/
def GoMap.get {α : Type} (m : GoMap α) (k : Bytes) : Option α :=
  (m.find? fun p => p.1 == k).map (·.2)

/-- `m[k] = v`. -/
def GoMap.set {α : Type} (m : GoMap α) (k : Bytes) (v : α) : GoMap α := (k, v) :: m

/-- The field enumerations of go_algorand.go. -/
inductive FieldGroup where
  | txn
  | global
  | ecdsa
  | ecGroup
  | base64
  | jsonRef
  | vrf
  | block
  | assetHolding
  | assetParams
  | appParams
  | acctParams
deriving DecidableEq, Repr

/-- The parts of `txnFieldSpec` (go_algorand.go:654-662) and of the other spec structures that
the code consults.  `array` and `itxVersion` exist for transaction fields only; elsewhere they
are `false` and 0.  For EC groups `version` is the constant `pairingVersion`
(`ecGroupSpec.Version`). -/
structure FieldSpec where
  field : Nat
  ftype : StackType
  array : Bool
  version : Nat
  itxVersion : Nat
deriving DecidableEq, Repr

/-- `txnFieldSpecs` (go_algorand.go:683-769); field numbers are those of the enumeration
(go_algorand.go:479-631). -/
def txnFieldSpecs : List FieldSpec := [
  ⟨0, .bytes, false, 0, 5⟩ /- Sender -/,
  ⟨1, .uint64, false, 0, 5⟩ /- Fee -/,
  ⟨2, .uint64, false, 0, 0⟩ /- FirstValid -/,
  ⟨3, .uint64, false, 7, 0⟩ /- FirstValidTime -/,
  ⟨4, .uint64, false, 0, 0⟩ /- LastValid -/,
  ⟨5, .bytes, false, 0, 6⟩ /- Note -/,
  ⟨6, .bytes, false, 0, 0⟩ /- Lease -/,
  ⟨7, .bytes, false, 0, 5⟩ /- Receiver -/,
  ⟨8, .uint64, false, 0, 5⟩ /- Amount -/,
  ⟨9, .bytes, false, 0, 5⟩ /- CloseRemainderTo -/,
  ⟨10, .bytes, false, 0, 6⟩ /- VotePK -/,
  ⟨11, .bytes, false, 0, 6⟩ /- SelectionPK -/,
  ⟨12, .uint64, false, 0, 6⟩ /- VoteFirst -/,
  ⟨13, .uint64, false, 0, 6⟩ /- VoteLast -/,
  ⟨14, .uint64, false, 0, 6⟩ /- VoteKeyDilution -/,
  ⟨15, .bytes, false, 0, 5⟩ /- Type -/,
  ⟨16, .uint64, false, 0, 5⟩ /- TypeEnum -/,
  ⟨17, .uint64, false, 0, 5⟩ /- XferAsset -/,
  ⟨18, .uint64, false, 0, 5⟩ /- AssetAmount -/,
  ⟨19, .bytes, false, 0, 5⟩ /- AssetSender -/,
  ⟨20, .bytes, false, 0, 5⟩ /- AssetReceiver -/,
  ⟨21, .bytes, false, 0, 5⟩ /- AssetCloseTo -/,
  ⟨22, .uint64, false, 0, 0⟩ /- GroupIndex -/,
  ⟨23, .bytes, false, 0, 0⟩ /- TxID -/,
  ⟨24, .uint64, false, 2, 6⟩ /- ApplicationID -/,
  ⟨25, .uint64, false, 2, 6⟩ /- OnCompletion -/,
  ⟨26, .bytes, true, 2, 6⟩ /- ApplicationArgs -/,
  ⟨27, .uint64, false, 2, 0⟩ /- NumAppArgs -/,
  ⟨28, .bytes, true, 2, 6⟩ /- Accounts -/,
  ⟨29, .uint64, false, 2, 0⟩ /- NumAccounts -/,
  ⟨30, .bytes, false, 2, 6⟩ /- ApprovalProgram -/,
  ⟨31, .bytes, false, 2, 6⟩ /- ClearStateProgram -/,
  ⟨32, .bytes, false, 2, 6⟩ /- RekeyTo -/,
  ⟨33, .uint64, false, 2, 5⟩ /- ConfigAsset -/,
  ⟨34, .uint64, false, 2, 5⟩ /- ConfigAssetTotal -/,
  ⟨35, .uint64, false, 2, 5⟩ /- ConfigAssetDecimals -/,
  ⟨36, .uint64, false, 2, 5⟩ /- ConfigAssetDefaultFrozen -/,
  ⟨37, .bytes, false, 2, 5⟩ /- ConfigAssetUnitName -/,
  ⟨38, .bytes, false, 2, 5⟩ /- ConfigAssetName -/,
  ⟨39, .bytes, false, 2, 5⟩ /- ConfigAssetURL -/,
  ⟨40, .bytes, false, 2, 5⟩ /- ConfigAssetMetadataHash -/,
  ⟨41, .bytes, false, 2, 5⟩ /- ConfigAssetManager -/,
  ⟨42, .bytes, false, 2, 5⟩ /- ConfigAssetReserve -/,
  ⟨43, .bytes, false, 2, 5⟩ /- ConfigAssetFreeze -/,
  ⟨44, .bytes, false, 2, 5⟩ /- ConfigAssetClawback -/,
  ⟨45, .uint64, false, 2, 5⟩ /- FreezeAsset -/,
  ⟨46, .bytes, false, 2, 5⟩ /- FreezeAssetAccount -/,
  ⟨47, .uint64, false, 2, 5⟩ /- FreezeAssetFrozen -/,
  ⟨48, .uint64, true, 3, 6⟩ /- Assets -/,
  ⟨49, .uint64, false, 3, 0⟩ /- NumAssets -/,
  ⟨50, .uint64, true, 3, 6⟩ /- Applications -/,
  ⟨51, .uint64, false, 3, 0⟩ /- NumApplications -/,
  ⟨52, .uint64, false, 3, 6⟩ /- GlobalNumUint -/,
  ⟨53, .uint64, false, 3, 6⟩ /- GlobalNumByteSlice -/,
  ⟨54, .uint64, false, 3, 6⟩ /- LocalNumUint -/,
  ⟨55, .uint64, false, 3, 6⟩ /- LocalNumByteSlice -/,
  ⟨56, .uint64, false, 4, 6⟩ /- ExtraProgramPages -/,
  ⟨57, .uint64, false, 5, 6⟩ /- Nonparticipation -/,
  ⟨58, .bytes, true, 5, 0⟩ /- Logs -/,
  ⟨59, .uint64, false, 5, 0⟩ /- NumLogs -/,
  ⟨60, .uint64, false, 5, 0⟩ /- CreatedAssetID -/,
  ⟨61, .uint64, false, 5, 0⟩ /- CreatedApplicationID -/,
  ⟨62, .bytes, false, 6, 0⟩ /- LastLog -/,
  ⟨63, .bytes, false, 6, 6⟩ /- StateProofPK -/,
  ⟨64, .bytes, true, 7, 7⟩ /- ApprovalProgramPages -/,
  ⟨65, .uint64, false, 7, 0⟩ /- NumApprovalProgramPages -/,
  ⟨66, .bytes, true, 7, 7⟩ /- ClearStateProgramPages -/,
  ⟨67, .uint64, false, 7, 0⟩ /- NumClearStateProgramPages -/]

/-- `globalFieldSpecs` (go_algorand.go:980-1005); field numbers are those of the enumeration
(go_algorand.go:899-946). -/
def globalFieldSpecs : List FieldSpec := [
  ⟨0, .uint64, false, 0, 0⟩ /- MinTxnFee -/,
  ⟨1, .uint64, false, 0, 0⟩ /- MinBalance -/,
  ⟨2, .uint64, false, 0, 0⟩ /- MaxTxnLife -/,
  ⟨3, .bytes, false, 0, 0⟩ /- ZeroAddress -/,
  ⟨4, .uint64, false, 0, 0⟩ /- GroupSize -/,
  ⟨5, .uint64, false, 2, 0⟩ /- LogicSigVersion -/,
  ⟨6, .uint64, false, 2, 0⟩ /- Round -/,
  ⟨7, .uint64, false, 2, 0⟩ /- LatestTimestamp -/,
  ⟨8, .uint64, false, 2, 0⟩ /- CurrentApplicationID -/,
  ⟨9, .bytes, false, 3, 0⟩ /- CreatorAddress -/,
  ⟨10, .bytes, false, 5, 0⟩ /- CurrentApplicationAddress -/,
  ⟨11, .bytes, false, 5, 0⟩ /- GroupID -/,
  ⟨12, .uint64, false, 6, 0⟩ /- OpcodeBudget -/,
  ⟨13, .uint64, false, 6, 0⟩ /- CallerApplicationID -/,
  ⟨14, .bytes, false, 6, 0⟩ /- CallerApplicationAddress -/]

/-- `ecdsaCurveSpecs` (go_algorand.go:1065-1068); field numbers are those of the enumeration
(go_algorand.go:1033-1039). -/
def ecdsaCurveSpecs : List FieldSpec := [
  ⟨0, .none, false, 5, 0⟩ /- Secp256k1 -/,
  ⟨1, .none, false, 7, 0⟩ /- Secp256r1 -/]

/-- `ecGroupSpecs` (go_algorand.go:2171-2176); field numbers are those of the enumeration
(go_algorand.go:2136-2146). -/
def ecGroupSpecs : List FieldSpec := [
  ⟨0, .none, false, 9, 0⟩ /- BN254_G1 -/,
  ⟨1, .none, false, 9, 0⟩ /- BN254_G2 -/,
  ⟨2, .none, false, 9, 0⟩ /- BLS12_381_G1 -/,
  ⟨3, .none, false, 9, 0⟩ /- BLS12_381_G2 -/]

/-- `base64EncodingSpecs` (go_algorand.go:1111-1114); field numbers are those of the enumeration
(go_algorand.go:1096-1102). -/
def base64EncodingSpecs : List FieldSpec := [
  ⟨0, .any, false, 6, 0⟩ /- URLEncoding -/,
  ⟨1, .any, false, 6, 0⟩ /- StdEncoding -/]

/-- `jsonRefSpecs` (go_algorand.go:1177-1181); field numbers are those of the enumeration
(go_algorand.go:1159-1167). -/
def jsonRefSpecs : List FieldSpec := [
  ⟨0, .bytes, false, 7, 0⟩ /- JSONString -/,
  ⟨1, .uint64, false, 7, 0⟩ /- JSONUint64 -/,
  ⟨2, .bytes, false, 7, 0⟩ /- JSONObject -/]

/-- `vrfStandardSpecs` (go_algorand.go:1239-1241); field numbers are those of the enumeration
(go_algorand.go:1226-1230). -/
def vrfStandardSpecs : List FieldSpec := [
  ⟨0, .none, false, 7, 0⟩ /- VrfAlgorand -/]

/-- `blockFieldSpecs` (go_algorand.go:1310-1313); field numbers are those of the enumeration
(go_algorand.go:1294-1300). -/
def blockFieldSpecs : List FieldSpec := [
  ⟨0, .bytes, false, 7, 0⟩ /- BlkSeed -/,
  ⟨1, .uint64, false, 7, 0⟩ /- BlkTimestamp -/]

/-- `assetHoldingFieldSpecs` (go_algorand.go:1398-1401); field numbers are those of the enumeration
(go_algorand.go:1365-1371). -/
def assetHoldingFieldSpecs : List FieldSpec := [
  ⟨0, .uint64, false, 2, 0⟩ /- AssetBalance -/,
  ⟨1, .uint64, false, 2, 0⟩ /- AssetFrozen -/]

/-- `assetParamsFieldSpecs` (go_algorand.go:1484-1497); field numbers are those of the enumeration
(go_algorand.go:1429-1457). -/
def assetParamsFieldSpecs : List FieldSpec := [
  ⟨0, .uint64, false, 2, 0⟩ /- AssetTotal -/,
  ⟨1, .uint64, false, 2, 0⟩ /- AssetDecimals -/,
  ⟨2, .uint64, false, 2, 0⟩ /- AssetDefaultFrozen -/,
  ⟨3, .bytes, false, 2, 0⟩ /- AssetUnitName -/,
  ⟨4, .bytes, false, 2, 0⟩ /- AssetName -/,
  ⟨5, .bytes, false, 2, 0⟩ /- AssetURL -/,
  ⟨6, .bytes, false, 2, 0⟩ /- AssetMetadataHash -/,
  ⟨7, .bytes, false, 2, 0⟩ /- AssetManager -/,
  ⟨8, .bytes, false, 2, 0⟩ /- AssetReserve -/,
  ⟨9, .bytes, false, 2, 0⟩ /- AssetFreeze -/,
  ⟨10, .bytes, false, 2, 0⟩ /- AssetClawback -/,
  ⟨11, .bytes, false, 5, 0⟩ /- AssetCreator -/]

/-- `appParamsFieldSpecs` (go_algorand.go:1575-1585); field numbers are those of the enumeration
(go_algorand.go:1525-1548). -/
def appParamsFieldSpecs : List FieldSpec := [
  ⟨0, .bytes, false, 5, 0⟩ /- AppApprovalProgram -/,
  ⟨1, .bytes, false, 5, 0⟩ /- AppClearStateProgram -/,
  ⟨2, .uint64, false, 5, 0⟩ /- AppGlobalNumUint -/,
  ⟨3, .uint64, false, 5, 0⟩ /- AppGlobalNumByteSlice -/,
  ⟨4, .uint64, false, 5, 0⟩ /- AppLocalNumUint -/,
  ⟨5, .uint64, false, 5, 0⟩ /- AppLocalNumByteSlice -/,
  ⟨6, .uint64, false, 5, 0⟩ /- AppExtraProgramPages -/,
  ⟨7, .bytes, false, 5, 0⟩ /- AppCreator -/,
  ⟨8, .bytes, false, 5, 0⟩ /- AppAddress -/]

/-- `acctParamsFieldSpecs` (go_algorand.go:1673-1687); field numbers are those of the enumeration
(go_algorand.go:1614-1646). -/
def acctParamsFieldSpecs : List FieldSpec := [
  ⟨0, .uint64, false, 6, 0⟩ /- AcctBalance -/,
  ⟨1, .uint64, false, 6, 0⟩ /- AcctMinBalance -/,
  ⟨2, .bytes, false, 6, 0⟩ /- AcctAuthAddr -/,
  ⟨3, .uint64, false, 8, 0⟩ /- AcctTotalNumUint -/,
  ⟨4, .uint64, false, 8, 0⟩ /- AcctTotalNumByteSlice -/,
  ⟨5, .uint64, false, 8, 0⟩ /- AcctTotalExtraAppPages -/,
  ⟨6, .uint64, false, 8, 0⟩ /- AcctTotalAppsCreated -/,
  ⟨7, .uint64, false, 8, 0⟩ /- AcctTotalAppsOptedIn -/,
  ⟨8, .uint64, false, 8, 0⟩ /- AcctTotalAssetsCreated -/,
  ⟨9, .uint64, false, 8, 0⟩ /- AcctTotalAssets -/,
  ⟨10, .uint64, false, 8, 0⟩ /- AcctTotalBoxes -/,
  ⟨11, .uint64, false, 8, 0⟩ /- AcctTotalBoxBytes -/]

/-- `_TxnField_name` (go_algorand.go:1924). -/
def txnText : Bytes :=
  b!"SenderFeeFirstValidFirstValidTimeLastValidNoteLeaseReceiverAmountCloseRemainderToVotePKSelectionPKVoteFirstVoteLastVoteKeyDilutionTypeTypeEnumXferAssetAssetAmountAssetSenderAssetReceiverAssetCloseToGroupIndexTxIDApplicationIDOnCompletionApplicationArgsNumAppArgsAccountsNumAccountsApprovalProgramClearStateProgramRekeyToConfigAssetConfigAssetTotalConfigAssetDecimalsConfigAssetDefaultFrozenConfigAssetUnitNameConfigAssetNameConfigAssetURLConfigAssetMetadataHashConfigAssetManagerConfigAssetReserveConfigAssetFreezeConfigAssetClawbackFreezeAssetFreezeAssetAccountFreezeAssetFrozenAssetsNumAssetsApplicationsNumApplicationsGlobalNumUintGlobalNumByteSliceLocalNumUintLocalNumByteSliceExtraProgramPagesNonparticipationLogsNumLogsCreatedAssetIDCreatedApplicationIDLastLogStateProofPKApprovalProgramPagesNumApprovalProgramPagesClearStateProgramPagesNumClearStateProgramPagesinvalidTxnField"

/-- `_TxnField_index` (go_algorand.go:1926). -/
def txnIndex : List Nat :=
  [0, 6, 9, 19, 33, 42, 46, 51, 59, 65, 81, 87, 98, 107, 115, 130, 134, 142, 151, 162, 173, 186, 198, 208, 212, 225, 237, 252, 262, 270, 281, 296, 313, 320, 331, 347, 366, 390, 409, 424, 438, 461, 479, 497, 514, 533, 544, 562, 579, 585, 594, 606, 621, 634, 652, 664, 681, 698, 714, 718, 725, 739, 759, 766, 778, 798, 821, 843, 868, 883]

/-- `_GlobalField_name` (go_algorand.go:1956). -/
def globalText : Bytes :=
  b!"MinTxnFeeMinBalanceMaxTxnLifeZeroAddressGroupSizeLogicSigVersionRoundLatestTimestampCurrentApplicationIDCreatorAddressCurrentApplicationAddressGroupIDOpcodeBudgetCallerApplicationIDCallerApplicationAddressinvalidGlobalField"

/-- `_GlobalField_index` (go_algorand.go:1958). -/
def globalIndex : List Nat :=
  [0, 9, 19, 29, 40, 49, 64, 69, 84, 104, 118, 143, 150, 162, 181, 205, 223]

/-- `_EcdsaCurve_name` (go_algorand.go:2100). -/
def ecdsaText : Bytes :=
  b!"Secp256k1Secp256r1invalidEcdsaCurve"

/-- `_EcdsaCurve_index` (go_algorand.go:2102). -/
def ecdsaIndex : List Nat :=
  [0, 9, 18, 35]

/-- `_EcGroup_name` (go_algorand.go:2122). -/
def ecGroupText : Bytes :=
  b!"BN254_G1BN254_G2BLS12_381_G1BLS12_381_G2invalidEcgroup"

/-- `_EcGroup_index` (go_algorand.go:2124). -/
def ecGroupIndex : List Nat :=
  [0, 8, 16, 28, 40, 54]

/-- `_Base64Encoding_name` (go_algorand.go:2210). -/
def base64Text : Bytes :=
  b!"URLEncodingStdEncodinginvalidBase64Encoding"

/-- `_Base64Encoding_index` (go_algorand.go:2212). -/
def base64Index : List Nat :=
  [0, 11, 22, 43]

/-- `_JSONRefType_name` (go_algorand.go:2230). -/
def jsonRefText : Bytes :=
  b!"JSONStringJSONUint64JSONObjectinvalidJSONRefType"

/-- `_JSONRefType_index` (go_algorand.go:2232). -/
def jsonRefIndex : List Nat :=
  [0, 10, 20, 30, 48]

/-- `_VrfStandard_name` (go_algorand.go:2248). -/
def vrfText : Bytes :=
  b!"VrfAlgorandinvalidVrfStandard"

/-- `_VrfStandard_index` (go_algorand.go:2250). -/
def vrfIndex : List Nat :=
  [0, 11, 29]

/-- `_BlockField_name` (go_algorand.go:2267). -/
def blockText : Bytes :=
  b!"BlkSeedBlkTimestampinvalidBlockField"

/-- `_BlockField_index` (go_algorand.go:2269). -/
def blockIndex : List Nat :=
  [0, 7, 19, 36]

/-- `_AssetHoldingField_name` (go_algorand.go:2059). -/
def assetHoldingText : Bytes :=
  b!"AssetBalanceAssetFrozeninvalidAssetHoldingField"

/-- `_AssetHoldingField_index` (go_algorand.go:2061). -/
def assetHoldingIndex : List Nat :=
  [0, 12, 23, 47]

/-- `_AssetParamsField_name` (go_algorand.go:1985). -/
def assetParamsText : Bytes :=
  b!"AssetTotalAssetDecimalsAssetDefaultFrozenAssetUnitNameAssetNameAssetURLAssetMetadataHashAssetManagerAssetReserveAssetFreezeAssetClawbackAssetCreatorinvalidAssetParamsField"

/-- `_AssetParamsField_index` (go_algorand.go:1987). -/
def assetParamsIndex : List Nat :=
  [0, 10, 23, 41, 54, 63, 71, 88, 100, 112, 123, 136, 148, 171]

/-- `_AppParamsField_name` (go_algorand.go:2011). -/
def appParamsText : Bytes :=
  b!"AppApprovalProgramAppClearStateProgramAppGlobalNumUintAppGlobalNumByteSliceAppLocalNumUintAppLocalNumByteSliceAppExtraProgramPagesAppCreatorAppAddressinvalidAppParamsField"

/-- `_AppParamsField_index` (go_algorand.go:2013). -/
def appParamsIndex : List Nat :=
  [0, 18, 38, 54, 75, 90, 110, 130, 140, 150, 171]

/-- `_AcctParamsField_name` (go_algorand.go:2040). -/
def acctParamsText : Bytes :=
  b!"AcctBalanceAcctMinBalanceAcctAuthAddrAcctTotalNumUintAcctTotalNumByteSliceAcctTotalExtraAppPagesAcctTotalAppsCreatedAcctTotalAppsOptedInAcctTotalAssetsCreatedAcctTotalAssetsAcctTotalBoxesAcctTotalBoxBytesinvalidAcctParamsField"

/-- `_AcctParamsField_index` (go_algorand.go:2042). -/
def acctParamsIndex : List Nat :=
  [0, 11, 25, 37, 53, 74, 96, 116, 136, 158, 173, 187, 204, 226]

namespace FieldGroup

/-- The `…Specs` table of a group. -/
def specs : FieldGroup → List FieldSpec
  | .txn => txnFieldSpecs
  | .global => globalFieldSpecs
  | .ecdsa => ecdsaCurveSpecs
  | .ecGroup => ecGroupSpecs
  | .base64 => base64EncodingSpecs
  | .jsonRef => jsonRefSpecs
  | .vrf => vrfStandardSpecs
  | .block => blockFieldSpecs
  | .assetHolding => assetHoldingFieldSpecs
  | .assetParams => assetParamsFieldSpecs
  | .appParams => appParamsFieldSpecs
  | .acctParams => acctParamsFieldSpecs

/-- The `stringer` name table of a group. -/
def text : FieldGroup → Bytes
  | .txn => txnText
  | .global => globalText
  | .ecdsa => ecdsaText
  | .ecGroup => ecGroupText
  | .base64 => base64Text
  | .jsonRef => jsonRefText
  | .vrf => vrfText
  | .block => blockText
  | .assetHolding => assetHoldingText
  | .assetParams => assetParamsText
  | .appParams => appParamsText
  | .acctParams => acctParamsText

/-- The `stringer` index table of a group. -/
def index : FieldGroup → List Nat
  | .txn => txnIndex
  | .global => globalIndex
  | .ecdsa => ecdsaIndex
  | .ecGroup => ecGroupIndex
  | .base64 => base64Index
  | .jsonRef => jsonRefIndex
  | .vrf => vrfIndex
  | .block => blockIndex
  | .assetHolding => assetHoldingIndex
  | .assetParams => assetParamsIndex
  | .appParams => appParamsIndex
  | .acctParams => acctParamsIndex

/-- The Go type name `stringer` prints for values outside the table. -/
def typeName : FieldGroup → Bytes
  | .txn => b!"TxnField"
  | .global => b!"GlobalField"
  | .ecdsa => b!"EcdsaCurve"
  | .ecGroup => b!"EcGroup"
  | .base64 => b!"Base64Encoding"
  | .jsonRef => b!"JSONRefType"
  | .vrf => b!"VrfStandard"
  | .block => b!"BlockField"
  | .assetHolding => b!"AssetHoldingField"
  | .assetParams => b!"AssetParamsField"
  | .appParams => b!"AppParamsField"
  | .acctParams => b!"AcctParamsField"

/-- The generated `String` methods (go_algorand.go:1928-2300, one per type): a slice of the
name table, or the type name with the number in parentheses when out of range. -/
def str (g : FieldGroup) (i : Nat) : Bytes :=
  if i ≥ g.index.length - 1 then g.typeName ++ (b!"(" ++ (formatUint i ++ b!")"))
  else (g.text.take (g.index.getD (i + 1) 0)).drop (g.index.getD i 0)

/-- The loops of `init` (go_algorand.go:1732-1814) that fill the `…SpecByName` maps, in table
order. -/
def specByName (g : FieldGroup) : GoMap FieldSpec :=
  g.specs.foldl (fun m s => m.set (g.str s.field) s) []

end FieldGroup

/-- What a field reader returns when it does not fail: the field and `isconst`. -/
structure FieldRead where
  field : Nat
  isconst : Bool
deriving DecidableEq, Repr

/-- `readAssetHoldingField` (parser.go:95-112), `readVrfVerifyField` (114-131),
`readBlockField` (133-150), `readAcctParams` (152-169), `readAppParamsField` (171-188),
`readAssetParamsField` (190-207), `readGlobalField` (209-226), `readEcGroupField` (227-244),
`readBase64EncodingField` (246-263), `readJsonRefField` (265-282) and `readEcdsaCurveIndex`
(348-365): all have this body, with their own table. `none` is the error return. -/
def readField (g : FieldGroup) (v : Nat) (s : Bytes) : Option FieldRead :=
  match g.specByName.get s with
  | some spec => if spec.version > v then none else some ⟨spec.field, true⟩
  | none => (readUint8 s).map fun n => ⟨n, false⟩

/-- `fieldContext` (process.go:531-537). -/
inductive FieldContext where
  | txn | txna | itxn
deriving DecidableEq, Repr

/-- `readTxnField` (parser.go:284-318). -/
def readTxnField (c : FieldContext) (v : Nat) (s : Bytes) : Option FieldRead :=
  match FieldGroup.txn.specByName.get s with
  | some spec =>
    if c = .txna ∧ spec.array = false then none
    else if c = .itxn ∧ spec.itxVersion = 0 then none
    else
      let needed :=
        match c with
        | .txn => spec.version
        | .itxn => spec.itxVersion
        | .txna => 0
      if needed > v then none else some ⟨spec.field, true⟩
  | none => (readUint8 s).map fun n => ⟨n, false⟩

end Teal
