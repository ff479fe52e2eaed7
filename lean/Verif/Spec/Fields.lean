import Verif.Model.Basic

/-!
# The AVM's field names, numbers and versions

For every field group the names an opcode of that group accepts, in the order of their
numbers (0, 1, 2, …), with the program version that introduced the name.  For transaction
fields also whether the field is an array, and the version from which `itxn_field` accepts
it (`none`: never).  Written as plain data, independently of the tables of the model.
-/

namespace Teal.Spec

/-- A documented field: name and version. -/
structure DocField where
  name : Bytes
  since : Nat
deriving DecidableEq

/-- A documented transaction field. -/
structure DocTxnField where
  name : Bytes
  since : Nat
  array : Bool
  inner : Option Nat
deriving DecidableEq

/-- Fields of `txn`, `gtxn`, `itxn_field`, … -/
def txnFields : List DocTxnField := [
  ⟨b!"Sender", 0, false, some 5⟩,
  ⟨b!"Fee", 0, false, some 5⟩,
  ⟨b!"FirstValid", 0, false, none⟩,
  ⟨b!"FirstValidTime", 7, false, none⟩,
  ⟨b!"LastValid", 0, false, none⟩,
  ⟨b!"Note", 0, false, some 6⟩,
  ⟨b!"Lease", 0, false, none⟩,
  ⟨b!"Receiver", 0, false, some 5⟩,
  ⟨b!"Amount", 0, false, some 5⟩,
  ⟨b!"CloseRemainderTo", 0, false, some 5⟩,
  ⟨b!"VotePK", 0, false, some 6⟩,
  ⟨b!"SelectionPK", 0, false, some 6⟩,
  ⟨b!"VoteFirst", 0, false, some 6⟩,
  ⟨b!"VoteLast", 0, false, some 6⟩,
  ⟨b!"VoteKeyDilution", 0, false, some 6⟩,
  ⟨b!"Type", 0, false, some 5⟩,
  ⟨b!"TypeEnum", 0, false, some 5⟩,
  ⟨b!"XferAsset", 0, false, some 5⟩,
  ⟨b!"AssetAmount", 0, false, some 5⟩,
  ⟨b!"AssetSender", 0, false, some 5⟩,
  ⟨b!"AssetReceiver", 0, false, some 5⟩,
  ⟨b!"AssetCloseTo", 0, false, some 5⟩,
  ⟨b!"GroupIndex", 0, false, none⟩,
  ⟨b!"TxID", 0, false, none⟩,
  ⟨b!"ApplicationID", 2, false, some 6⟩,
  ⟨b!"OnCompletion", 2, false, some 6⟩,
  ⟨b!"ApplicationArgs", 2, true, some 6⟩,
  ⟨b!"NumAppArgs", 2, false, none⟩,
  ⟨b!"Accounts", 2, true, some 6⟩,
  ⟨b!"NumAccounts", 2, false, none⟩,
  ⟨b!"ApprovalProgram", 2, false, some 6⟩,
  ⟨b!"ClearStateProgram", 2, false, some 6⟩,
  ⟨b!"RekeyTo", 2, false, some 6⟩,
  ⟨b!"ConfigAsset", 2, false, some 5⟩,
  ⟨b!"ConfigAssetTotal", 2, false, some 5⟩,
  ⟨b!"ConfigAssetDecimals", 2, false, some 5⟩,
  ⟨b!"ConfigAssetDefaultFrozen", 2, false, some 5⟩,
  ⟨b!"ConfigAssetUnitName", 2, false, some 5⟩,
  ⟨b!"ConfigAssetName", 2, false, some 5⟩,
  ⟨b!"ConfigAssetURL", 2, false, some 5⟩,
  ⟨b!"ConfigAssetMetadataHash", 2, false, some 5⟩,
  ⟨b!"ConfigAssetManager", 2, false, some 5⟩,
  ⟨b!"ConfigAssetReserve", 2, false, some 5⟩,
  ⟨b!"ConfigAssetFreeze", 2, false, some 5⟩,
  ⟨b!"ConfigAssetClawback", 2, false, some 5⟩,
  ⟨b!"FreezeAsset", 2, false, some 5⟩,
  ⟨b!"FreezeAssetAccount", 2, false, some 5⟩,
  ⟨b!"FreezeAssetFrozen", 2, false, some 5⟩,
  ⟨b!"Assets", 3, true, some 6⟩,
  ⟨b!"NumAssets", 3, false, none⟩,
  ⟨b!"Applications", 3, true, some 6⟩,
  ⟨b!"NumApplications", 3, false, none⟩,
  ⟨b!"GlobalNumUint", 3, false, some 6⟩,
  ⟨b!"GlobalNumByteSlice", 3, false, some 6⟩,
  ⟨b!"LocalNumUint", 3, false, some 6⟩,
  ⟨b!"LocalNumByteSlice", 3, false, some 6⟩,
  ⟨b!"ExtraProgramPages", 4, false, some 6⟩,
  ⟨b!"Nonparticipation", 5, false, some 6⟩,
  ⟨b!"Logs", 5, true, none⟩,
  ⟨b!"NumLogs", 5, false, none⟩,
  ⟨b!"CreatedAssetID", 5, false, none⟩,
  ⟨b!"CreatedApplicationID", 5, false, none⟩,
  ⟨b!"LastLog", 6, false, none⟩,
  ⟨b!"StateProofPK", 6, false, some 6⟩,
  ⟨b!"ApprovalProgramPages", 7, true, some 7⟩,
  ⟨b!"NumApprovalProgramPages", 7, false, none⟩,
  ⟨b!"ClearStateProgramPages", 7, true, some 7⟩,
  ⟨b!"NumClearStateProgramPages", 7, false, none⟩]

/-- Fields of the group `GlobalField`. -/
def globalFields : List DocField := [
  ⟨b!"MinTxnFee", 0⟩,
  ⟨b!"MinBalance", 0⟩,
  ⟨b!"MaxTxnLife", 0⟩,
  ⟨b!"ZeroAddress", 0⟩,
  ⟨b!"GroupSize", 0⟩,
  ⟨b!"LogicSigVersion", 2⟩,
  ⟨b!"Round", 2⟩,
  ⟨b!"LatestTimestamp", 2⟩,
  ⟨b!"CurrentApplicationID", 2⟩,
  ⟨b!"CreatorAddress", 3⟩,
  ⟨b!"CurrentApplicationAddress", 5⟩,
  ⟨b!"GroupID", 5⟩,
  ⟨b!"OpcodeBudget", 6⟩,
  ⟨b!"CallerApplicationID", 6⟩,
  ⟨b!"CallerApplicationAddress", 6⟩]

/-- Fields of the group `EcdsaCurve`. -/
def ecdsaFields : List DocField := [
  ⟨b!"Secp256k1", 5⟩,
  ⟨b!"Secp256r1", 7⟩]

/-- Fields of the group `EcGroup`. -/
def ecGroupFields : List DocField := [
  ⟨b!"BN254_G1", 9⟩,
  ⟨b!"BN254_G2", 9⟩,
  ⟨b!"BLS12_381_G1", 9⟩,
  ⟨b!"BLS12_381_G2", 9⟩]

/-- Fields of the group `Base64Encoding`. -/
def base64Fields : List DocField := [
  ⟨b!"URLEncoding", 6⟩,
  ⟨b!"StdEncoding", 6⟩]

/-- Fields of the group `JSONRefType`. -/
def jsonRefFields : List DocField := [
  ⟨b!"JSONString", 7⟩,
  ⟨b!"JSONUint64", 7⟩,
  ⟨b!"JSONObject", 7⟩]

/-- Fields of the group `VrfStandard`. -/
def vrfFields : List DocField := [
  ⟨b!"VrfAlgorand", 7⟩]

/-- Fields of the group `BlockField`. -/
def blockFields : List DocField := [
  ⟨b!"BlkSeed", 7⟩,
  ⟨b!"BlkTimestamp", 7⟩]

/-- Fields of the group `AssetHoldingField`. -/
def assetHoldingFields : List DocField := [
  ⟨b!"AssetBalance", 2⟩,
  ⟨b!"AssetFrozen", 2⟩]

/-- Fields of the group `AssetParamsField`. -/
def assetParamsFields : List DocField := [
  ⟨b!"AssetTotal", 2⟩,
  ⟨b!"AssetDecimals", 2⟩,
  ⟨b!"AssetDefaultFrozen", 2⟩,
  ⟨b!"AssetUnitName", 2⟩,
  ⟨b!"AssetName", 2⟩,
  ⟨b!"AssetURL", 2⟩,
  ⟨b!"AssetMetadataHash", 2⟩,
  ⟨b!"AssetManager", 2⟩,
  ⟨b!"AssetReserve", 2⟩,
  ⟨b!"AssetFreeze", 2⟩,
  ⟨b!"AssetClawback", 2⟩,
  ⟨b!"AssetCreator", 5⟩]

/-- Fields of the group `AppParamsField`. -/
def appParamsFields : List DocField := [
  ⟨b!"AppApprovalProgram", 5⟩,
  ⟨b!"AppClearStateProgram", 5⟩,
  ⟨b!"AppGlobalNumUint", 5⟩,
  ⟨b!"AppGlobalNumByteSlice", 5⟩,
  ⟨b!"AppLocalNumUint", 5⟩,
  ⟨b!"AppLocalNumByteSlice", 5⟩,
  ⟨b!"AppExtraProgramPages", 5⟩,
  ⟨b!"AppCreator", 5⟩,
  ⟨b!"AppAddress", 5⟩]

/-- Fields of the group `AcctParamsField`. -/
def acctParamsFields : List DocField := [
  ⟨b!"AcctBalance", 6⟩,
  ⟨b!"AcctMinBalance", 6⟩,
  ⟨b!"AcctAuthAddr", 6⟩,
  ⟨b!"AcctTotalNumUint", 8⟩,
  ⟨b!"AcctTotalNumByteSlice", 8⟩,
  ⟨b!"AcctTotalExtraAppPages", 8⟩,
  ⟨b!"AcctTotalAppsCreated", 8⟩,
  ⟨b!"AcctTotalAppsOptedIn", 8⟩,
  ⟨b!"AcctTotalAssetsCreated", 8⟩,
  ⟨b!"AcctTotalAssets", 8⟩,
  ⟨b!"AcctTotalBoxes", 8⟩,
  ⟨b!"AcctTotalBoxBytes", 8⟩]

end Teal.Spec
