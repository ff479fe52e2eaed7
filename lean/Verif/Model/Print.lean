import Verif.Model.Op

/-!
# Printing (`String` methods of `expr.go`, `Listing.String` of `compiler.go`)
-/

namespace Teal

/-- `strings.Join(ss, " ")`. -/
def joinSpace : List Bytes → Bytes
  | [] => []
  | [s] => s
  | s :: ss => s ++ chSpace :: joinSpace ss

/-- The format strings of the `String` methods (expr.go:752, 863, 939, 1082, 1109, 2762, 3280,
1856, 1864, 1880, 3200, 2512, 2558), up to the space; `Replace2Expr` prints `repace2`
(expr.go:1945-1947). -/
def U8Op.str : U8Op → Bytes
  | .intc => b!"intc" | .bytec => b!"bytec" | .arg => b!"arg" | .load => b!"load"
  | .store => b!"store" | .gloads => b!"gloads" | .gaid => b!"gaid" | .bury => b!"bury"
  | .popn => b!"popn" | .dupn => b!"dupn" | .dig => b!"dig" | .cover => b!"cover"
  | .uncover => b!"uncover" | .replace2 => b!"repace2"

/-- expr.go:2747, 3368, 2836, 1191. -/
def U8U8Op.str : U8U8Op → Bytes
  | .gload => b!"gload" | .substring => b!"substring" | .extract => b!"extract"
  | .proto => b!"proto"

/-- expr.go:2487, 2469. -/
def I8Op.str : I8Op → Bytes
  | .frameDig => b!"frame_dig" | .frameBury => b!"frame_bury"

/-- The opcode names in the `String` methods of the field instructions (expr.go:1020, 1163, 2647,
2655, 2827, 3185, 2177, 1060, 182, 222, 248, 1994, 2025, 2996, 2580, 2867, 2890, 2949, 2941,
2275, 2306, 2337, 2368, 2399, 2429). -/
def FieldOp.str : FieldOp → Bytes
  | .txn => b!"txn" | .gtxns => b!"gtxns" | .itxn => b!"itxn" | .itxnField => b!"itxn_field"
  | .txnas => b!"txnas" | .gtxnsas => b!"gtxnsas" | .itxnas => b!"itxnas"
  | .globalOp => b!"global" | .ecdsaVerify => b!"ecdsa_verify"
  | .ecdsaPkDecompress => b!"ecdsa_pk_decompress" | .ecdsaPkRecover => b!"ecdsa_pk_recover"
  | .base64Decode => b!"base64_decode" | .jsonRef => b!"json_ref"
  | .assetHoldingGet => b!"asset_holding_get" | .assetParamsGet => b!"asset_params_get"
  | .appParamsGet => b!"app_params_get" | .acctParamsGet => b!"acct_params_get"
  | .vrfVerify => b!"vrf_verify" | .block => b!"block"
  | .ecAdd => b!"ec_add" | .ecScalarMul => b!"ec_scalar_mul"
  | .ecPairingCheck => b!"ec_pairing_check" | .ecMultiExp => b!"ec_multi_exp"
  | .ecSubgroupCheck => b!"ec_subgroup_check" | .ecMapTo => b!"ec_map_to"

/-- The group whose name table `%s` prints the field with; `none` where the format is `%d`
(expr.go:182, 222, 248, 1994, 2025, 2275, 2306, 2337, 2368, 2399, 2429). -/
def FieldOp.printGroup : FieldOp → Option FieldGroup
  | .txn | .gtxns | .itxn | .itxnField | .txnas | .gtxnsas | .itxnas => some .txn
  | .globalOp => some .global
  | .assetHoldingGet => some .assetHolding
  | .assetParamsGet => some .assetParams
  | .appParamsGet => some .appParams
  | .acctParamsGet => some .acctParams
  | .vrfVerify => some .vrf
  | .block => some .block
  | .ecdsaVerify | .ecdsaPkDecompress | .ecdsaPkRecover | .base64Decode | .jsonRef
  | .ecAdd | .ecScalarMul | .ecPairingCheck | .ecMultiExp | .ecSubgroupCheck | .ecMapTo => none

/-- `%s` of a field of a group, or `%d`. -/
def printField (g : Option FieldGroup) (f : Nat) : Bytes :=
  match g with
  | some g => g.str f
  | none => formatUint f

/-- expr.go:1120, 2725, 2101. -/
def FieldIdxOp.str : FieldIdxOp → Bytes
  | .txna => b!"txna" | .gtxnsa => b!"gtxnsa" | .itxna => b!"itxna"

/-- expr.go:1141, 3044, 2124, 2200. -/
def GroupFieldOp.str : GroupFieldOp → Bytes
  | .gtxn => b!"gtxn" | .gitxn => b!"gitxn" | .gtxnas => b!"gtxnas" | .gitxnas => b!"gitxnas"

/-- expr.go:2704, 3579. -/
def GroupFieldIdxOp.str : GroupFieldIdxOp → Bytes
  | .gtxna => b!"gtxna" | .gitxna => b!"gitxna"

/-- expr.go:1475, 1496, 1515, 1801. -/
def BranchOp.str : BranchOp → Bytes
  | .bnz => b!"bnz" | .bz => b!"bz" | .b => b!"b" | .callsub => b!"callsub"

/-- `Bytes.String` for the only format `Process` produces (expr.go:1304-1314). -/
def bytesStr (v : Bytes) : Bytes := b!"b64 " ++ b64Encode v

/-- `strings.ReplaceAll(s, "\"", "\\\"")` (expr.go:2231-2233). -/
def escapeQuotes (s : Bytes) : Bytes :=
  s.flatMap fun c => if c = chQuote then [chBackslash, chQuote] else [c]

/-- The `String` methods of expr.go (1522 empty, 1201 label, 1454 pragma, 2572 comment, 1283 int,
1262 pushint, 1316 byte, 1248 pushbytes, 2245 addr, 2231 method, 730 intcblock, 2216 pushints,
834 bytecblock, 2261 pushbytess, 1718 switch, 1765 match; the others above). -/
def Op.str : Op → Bytes
  | .empty => []
  | .label n => n ++ [chColon]
  | .pragma v => b!"#pragma version " ++ formatUint v
  | .comment t => b!"//" ++ t
  | .plain k => k.str
  | .u8 k n => k.str ++ chSpace :: formatUint n
  | .u8u8 k m n => k.str ++ chSpace :: (formatUint m ++ chSpace :: formatUint n)
  | .i8 k i => k.str ++ chSpace :: formatInt i
  | .field k f => k.str ++ chSpace :: printField k.printGroup f
  | .fieldIdx k f i =>
    match k with
    -- `ItxnaExpr` prints the field with `%d` (expr.go:2101)
    | .itxna => k.str ++ chSpace :: (formatUint f ++ chSpace :: formatUint i)
    | _ => k.str ++ chSpace :: (FieldGroup.txn.str f ++ chSpace :: formatUint i)
  | .groupField k t f =>
    match k with
    -- `GtxnasExpr` prints `Field` first, with `%d` (expr.go:2124)
    | .gtxnas => k.str ++ chSpace :: (formatUint f ++ chSpace :: formatUint t)
    | _ => k.str ++ chSpace :: (formatUint t ++ chSpace :: FieldGroup.txn.str f)
  | .groupFieldIdx k t f i =>
    k.str ++ chSpace :: (formatUint t ++ chSpace ::
      (FieldGroup.txn.str f ++ chSpace :: formatUint i))
  | .int v => b!"int " ++ formatUint v
  | .pushint v => b!"pushint " ++ formatUint v
  | .byte v => b!"byte " ++ bytesStr v
  | .pushbytes v => b!"pushbytes " ++ bytesStr v
  | .addr a => b!"addr " ++ a
  | .method s => b!"method \"" ++ (escapeQuotes s ++ b!"\"")
  | .intcblock vs =>
    if vs = [] then b!"intcblock" else b!"intcblock " ++ joinSpace (vs.map formatUint)
  -- `PushIntsExpr` prints `pushbytess` (expr.go:2216)
  | .pushints vs => b!"pushbytess " ++ joinSpace (vs.map formatUint)
  | .bytecblock vs =>
    if vs = [] then b!"bytecblock"
    else b!"bytecblock " ++ joinSpace (vs.map fun v => b!"0x" ++ hexEncode v)
  | .pushbytess vs => b!"pushbytess " ++ joinSpace (vs.map bytesStr)
  | .branch k l => k.str ++ chSpace :: l
  | .switch ls => if ls = [] then b!"switch" else b!"switch " ++ joinSpace ls
  | .match_ ls => if ls = [] then b!"match" else b!"match " ++ joinSpace ls

/-- `Listing.String` (compiler.go:242-251). -/
def listingStr (l : List Op) : Bytes := l.flatMap fun o => o.str ++ [chLF]

end Teal
