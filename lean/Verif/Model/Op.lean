import Verif.Model.Consts

/-!
# Instructions (`expr.go`)

The instructions `Process` can emit.  Go has one struct type per opcode; here instructions with
the same kind of immediates share a constructor, and the opcode is a tag.  `uint8`, `uint64`
fields are natural numbers (every value stored is in range, see `Op.WF` in Spec/Ops), `int8`
fields are integers.  `ByteExpr`/`PushBytesExpr` have a `Format` field, which `Process` always
leaves at 0 (`BytesBase64`); other formats are not modelled.
-/

namespace Teal

/-- Opcodes without immediates: one Go type each. -/
inductive Plain where
  | err /- ErrExpr (expr.go:21) -/
  | sha256 /- Sha256Expr (expr.go:59) -/
  | keccak256 /- Keccak256Expr (expr.go:90) -/
  | sha512_256 /- Sha512256Expr (expr.go:117) -/
  | ed25519verify /- ED25519VerifyExpr (expr.go:144) -/
  | plus /- PlusExpr (expr.go:254) -/
  | minus /- MinusExpr (expr.go:274) -/
  | div /- DivExpr (expr.go:294) -/
  | mul /- MulExpr (expr.go:313) -/
  | lt /- LtExpr (expr.go:332) -/
  | gt /- GtExpr (expr.go:352) -/
  | le /- LtEqExpr (expr.go:372) -/
  | ge /- GtEqExpr (expr.go:392) -/
  | and /- AndExpr (expr.go:412) -/
  | or /- OrExpr (expr.go:432) -/
  | eq /- EqExpr (expr.go:452) -/
  | neq /- NeqExpr (expr.go:472) -/
  | not /- NotExpr (expr.go:492) -/
  | len /- LenExpr (expr.go:510) -/
  | itob /- ItobExpr (expr.go:528) -/
  | btoi /- BtoiExpr (expr.go:546) -/
  | mod /- ModExpr (expr.go:564) -/
  | bitOr /- BitOrExpr (expr.go:583) -/
  | bitAnd /- BitAndExpr (expr.go:602) -/
  | bitXor /- BitXorExpr (expr.go:621) -/
  | bitNot /- BitNotExpr (expr.go:640) -/
  | mulw /- MulwExpr (expr.go:658) -/
  | addw /- AddwExpr (expr.go:678) -/
  | divmodw /- DivModwExpr (expr.go:698) -/
  | intc_0 /- Intc0Expr (expr.go:765) -/
  | intc_1 /- Intc1Expr (expr.go:782) -/
  | intc_2 /- Intc2Expr (expr.go:798) -/
  | intc_3 /- Intc3Expr (expr.go:814) -/
  | bytec_0 /- Bytec0Expr (expr.go:869) -/
  | bytec_1 /- Bytec1Expr (expr.go:886) -/
  | bytec_2 /- Bytec2Expr (expr.go:903) -/
  | bytec_3 /- Bytec3Expr (expr.go:919) -/
  | arg_0 /- Arg0Expr (expr.go:952) -/
  | arg_1 /- Arg1Expr (expr.go:968) -/
  | arg_2 /- Arg2Expr (expr.go:984) -/
  | arg_3 /- Arg3Expr (expr.go:1006) -/
  | gaids /- GaidsExpr (expr.go:3291) -/
  | loads /- LoadsExpr (expr.go:3308) -/
  | stores /- StoresExpr (expr.go:3325) -/
  | returnOp /- ReturnExpr (expr.go:1681) -/
  | assert /- AssertExpr (expr.go:1811) -/
  | pop /- PopExpr (expr.go:2665) -/
  | dup /- DupExpr (expr.go:1825) -/
  | dup2 /- Dup2Expr (expr.go:3344) -/
  | swap /- SwapExpr (expr.go:2679) -/
  | select /- SelectExpr (expr.go:3396) -/
  | concat /- ConcatExpr (expr.go:2599) -/
  | substring3 /- Substring3Expr (expr.go:3084) -/
  | getbit /- GetBitExpr (expr.go:3133) -/
  | setbit /- SetBitExpr (expr.go:3149) -/
  | getbyte /- GetByteExpr (expr.go:3068) -/
  | setbyte /- SetByteExpr (expr.go:2491) -/
  | extract3 /- Extract3Expr (expr.go:2967) -/
  | extractUint16 /- ExtractUint16Expr (expr.go:1893) -/
  | extractUint32 /- ExtractUint32Expr (expr.go:1909) -/
  | extractUint64 /- Extract64BitsExpr (expr.go:1925) -/
  | replace3 /- Replace3Expr (expr.go:1957) -/
  | balance /- BalanceExpr (expr.go:2794) -/
  | appOptedIn /- AppOptedInExpr (expr.go:3687) -/
  | appLocalGet /- AppLocalGetExpr (expr.go:1530) -/
  | appLocalGetEx /- AppLocalGetExExpr (expr.go:1609) -/
  | appGlobalGet /- AppGlobalGetExpr (expr.go:1577) -/
  | appGlobalGetEx /- AppGlobalGetExExpr (expr.go:1592) -/
  | appLocalPut /- AppLocalPutExpr (expr.go:1546) -/
  | appGlobalPut /- AppGlobalPutExpr (expr.go:1562) -/
  | appLocalDel /- AppLocalDelExpr (expr.go:1627) -/
  | appGlobalDel /- AppGlobalDelExpr (expr.go:3595) -/
  | minBalance /- MinBalanceExpr (expr.go:3024) -/
  | ed25519verifyBare /- Ed25519VerifyBareExpr (expr.go:2037) -/
  | retsub /- RetSubExpr (expr.go:1642) -/
  | shl /- ShlExpr (expr.go:3101) -/
  | shr /- ShrExpr (expr.go:3117) -/
  | sqrt /- SqrtExpr (expr.go:2774) -/
  | bitlen /- BitLenExpr (expr.go:2058) -/
  | exp /- ExpExpr (expr.go:2847) -/
  | expw /- ExpwExpr (expr.go:2074) -/
  | bsqrt /- BsqrtExpr (expr.go:3554) -/
  | divw /- DivwExpr (expr.go:3379) -/
  | sha3_256 /- Sha3256Expr (expr.go:38) -/
  | bplus /- BplusExpr (expr.go:3256) -/
  | bminus /- BminusExpr (expr.go:3204) -/
  | bdiv /- BdivExpr (expr.go:3236) -/
  | bmul /- BmulExpr (expr.go:3216) -/
  | blt /- BltExpr (expr.go:3609) -/
  | bgt /- BGtExpr (expr.go:3422) -/
  | ble /- BytesLeExpr (expr.go:3438) -/
  | bge /- BytesGeExpr (expr.go:3454) -/
  | beq /- BytesEqExpr (expr.go:3470) -/
  | bneq /- BytesNeqExpr (expr.go:3486) -/
  | bmod /- BytesModuloExpr (expr.go:3502) -/
  | bbitOr /- BytesBitOrExpr (expr.go:3522) -/
  | bbitAnd /- BytesBitAndExpr (expr.go:3534) -/
  | bbitXor /- BytesBitXorExpr (expr.go:3633) -/
  | bbitNot /- BytesBitNotExpr (expr.go:3653) -/
  | bzero /- BytesZeroExpr (expr.go:3672) -/
  | log /- LogExpr (expr.go:2909) -/
  | itxnBegin /- ItxnBeginExpr (expr.go:2615) -/
  | itxnSubmit /- ItxnSubmitExpr (expr.go:2623) -/
  | itxnNext /- ItxnNextExpr (expr.go:3016) -/
  | boxCreate /- BoxCreateExpr (expr.go:1363) -/
  | boxExtract /- BoxExtractExpr (expr.go:1430) -/
  | boxReplace /- BoxReplaceExpr (expr.go:1413) -/
  | boxDel /- BoxDelExpr (expr.go:1391) -/
  | boxLen /- BoxLenExpr (expr.go:1374) -/
  | boxGet /- BoxGetExpr (expr.go:1330) -/
  | boxPut /- BoxPutExpr (expr.go:1347) -/
  | args /- ArgsExpr (expr.go:2128) -/
  | gloadss /- GloadssExpr (expr.go:2143) -/
deriving DecidableEq, Repr

/-- What the `String` methods of these types return. -/
def Plain.str : Plain → Bytes
  | .err => b!"err" /- expr.go:28-30 -/
  | .sha256 => b!"sha256" /- expr.go:61-63 -/
  | .keccak256 => b!"keccak256" /- expr.go:92-94 -/
  | .sha512_256 => b!"sha512_256" /- expr.go:119-121 -/
  | .ed25519verify => b!"ed25519verify" /- expr.go:146-148 -/
  | .plus => b!"+" /- expr.go:257-259 -/
  | .minus => b!"-" /- expr.go:286-288 -/
  | .div => b!"/" /- expr.go:296-298 -/
  | .mul => b!"*" /- expr.go:315-317 -/
  | .lt => b!"<" /- expr.go:335-337 -/
  | .gt => b!">" /- expr.go:364-366 -/
  | .le => b!"<=" /- expr.go:384-386 -/
  | .ge => b!">=" /- expr.go:395-397 -/
  | .and => b!"&&" /- expr.go:424-426 -/
  | .or => b!"||" /- expr.go:435-437 -/
  | .eq => b!"==" /- expr.go:464-466 -/
  | .neq => b!"!=" /- expr.go:484-486 -/
  | .not => b!"!" /- expr.go:494-496 -/
  | .len => b!"len" /- expr.go:512-514 -/
  | .itob => b!"itob" /- expr.go:530-532 -/
  | .btoi => b!"btoi" /- expr.go:548-550 -/
  | .mod => b!"%" /- expr.go:566-568 -/
  | .bitOr => b!"|" /- expr.go:594-596 -/
  | .bitAnd => b!"&" /- expr.go:604-606 -/
  | .bitXor => b!"^" /- expr.go:632-634 -/
  | .bitNot => b!"~" /- expr.go:642-644 -/
  | .mulw => b!"mulw" /- expr.go:670-672 -/
  | .addw => b!"addw" /- expr.go:680-682 -/
  | .divmodw => b!"divmodw" /- expr.go:700-702 -/
  | .intc_0 => b!"intc_0" /- expr.go:767-769 -/
  | .intc_1 => b!"intc_1" /- expr.go:784-786 -/
  | .intc_2 => b!"intc_2" /- expr.go:800-802 -/
  | .intc_3 => b!"intc_3" /- expr.go:816-818 -/
  | .bytec_0 => b!"bytec_0" /- expr.go:871-873 -/
  | .bytec_1 => b!"bytec_1" /- expr.go:888-890 -/
  | .bytec_2 => b!"bytec_2" /- expr.go:905-907 -/
  | .bytec_3 => b!"bytec_3" /- expr.go:921-923 -/
  | .arg_0 => b!"arg_0" /- expr.go:954-956 -/
  | .arg_1 => b!"arg_1" /- expr.go:970-972 -/
  | .arg_2 => b!"arg_2" /- expr.go:986-988 -/
  | .arg_3 => b!"arg_3" /- expr.go:1008-1010 -/
  | .gaids => b!"gaids" /- expr.go:3294-3296 -/
  | .loads => b!"loads" /- expr.go:3311-3313 -/
  | .stores => b!"stores" /- expr.go:3338-3340 -/
  | .returnOp => b!"return" /- expr.go:1690-1692 -/
  | .assert => b!"assert" /- expr.go:1813-1815 -/
  | .pop => b!"pop" /- expr.go:2667-2669 -/
  | .dup => b!"dup" /- expr.go:1827-1829 -/
  | .dup2 => b!"dup2" /- expr.go:3346-3348 -/
  | .swap => b!"swap" /- expr.go:2681-2683 -/
  | .select => b!"select" /- expr.go:3398-3400 -/
  | .concat => b!"concat" /- expr.go:2601-2603 -/
  | .substring3 => b!"substring3" /- expr.go:3086-3088 -/
  | .getbit => b!"getbit" /- expr.go:3135-3137 -/
  | .setbit => b!"setbit" /- expr.go:3151-3153 -/
  | .getbyte => b!"getbyte" /- expr.go:3070-3072 -/
  | .setbyte => b!"setbyte" /- expr.go:2493-2495 -/
  | .extract3 => b!"extract3" /- expr.go:2969-2971 -/
  | .extractUint16 => b!"extract_uint16" /- expr.go:1895-1897 -/
  | .extractUint32 => b!"extract_uint32" /- expr.go:1911-1913 -/
  | .extractUint64 => b!"extract_uint64" /- expr.go:1927-1929 -/
  | .replace3 => b!"replace3" /- expr.go:1959-1961 -/
  | .balance => b!"balance" /- expr.go:2796-2798 -/
  | .appOptedIn => b!"app_opted_in" /- expr.go:3689-3691 -/
  | .appLocalGet => b!"app_local_get" /- expr.go:1532-1534 -/
  | .appLocalGetEx => b!"app_local_get_ex" /- expr.go:1611-1613 -/
  | .appGlobalGet => b!"app_global_get" /- expr.go:1579-1581 -/
  | .appGlobalGetEx => b!"app_global_get_ex" /- expr.go:1594-1596 -/
  | .appLocalPut => b!"app_local_put" /- expr.go:1548-1550 -/
  | .appGlobalPut => b!"app_global_put" /- expr.go:1564-1566 -/
  | .appLocalDel => b!"app_local_del" /- expr.go:1629-1631 -/
  | .appGlobalDel => b!"app_global_del" /- expr.go:3597-3599 -/
  | .minBalance => b!"min_balance" /- expr.go:3026-3028 -/
  | .ed25519verifyBare => b!"ed25519verify_bare" /- expr.go:2039-2041 -/
  | .retsub => b!"retsub" /- expr.go:1675-1677 -/
  | .shl => b!"shl" /- expr.go:3103-3105 -/
  | .shr => b!"shr" /- expr.go:3119-3121 -/
  | .sqrt => b!"sqrt" /- expr.go:2776-2778 -/
  | .bitlen => b!"bitlen" /- expr.go:2060-2062 -/
  | .exp => b!"exp" /- expr.go:2849-2851 -/
  | .expw => b!"expw" /- expr.go:2076-2078 -/
  | .bsqrt => b!"bsqrt" /- expr.go:3556-3558 -/
  | .divw => b!"divw" /- expr.go:3381-3383 -/
  | .sha3_256 => b!"sha3_256" /- expr.go:40-42 -/
  | .bplus => b!"b+" /- expr.go:3258-3260 -/
  | .bminus => b!"b-" /- expr.go:3206-3208 -/
  | .bdiv => b!"b/" /- expr.go:3238-3240 -/
  | .bmul => b!"b*" /- expr.go:3218-3220 -/
  | .blt => b!"b<" /- expr.go:3611-3613 -/
  | .bgt => b!"b>" /- expr.go:3424-3426 -/
  | .ble => b!"b<=" /- expr.go:3440-3442 -/
  | .bge => b!"b>=" /- expr.go:3456-3458 -/
  | .beq => b!"b==" /- expr.go:3472-3474 -/
  | .bneq => b!"b!=" /- expr.go:3488-3490 -/
  | .bmod => b!"b%" /- expr.go:3504-3506 -/
  | .bbitOr => b!"b|" /- expr.go:3524-3526 -/
  | .bbitAnd => b!"b&" /- expr.go:3536-3538 -/
  | .bbitXor => b!"b^" /- expr.go:3635-3637 -/
  | .bbitNot => b!"b~" /- expr.go:3655-3657 -/
  | .bzero => b!"bzero" /- expr.go:3674-3676 -/
  | .log => b!"log" /- expr.go:2911-2913 -/
  | .itxnBegin => b!"itxn_begin" /- expr.go:2617-2619 -/
  | .itxnSubmit => b!"itxn_submit" /- expr.go:2625-2627 -/
  | .itxnNext => b!"itxn_next" /- expr.go:3018-3020 -/
  | .boxCreate => b!"box_create" /- expr.go:1407-1409 -/
  | .boxExtract => b!"box_extract" /- expr.go:1435-1437 -/
  | .boxReplace => b!"box_replace" /- expr.go:1418-1420 -/
  | .boxDel => b!"box_del" /- expr.go:1394-1396 -/
  | .boxLen => b!"box_len" /- expr.go:1377-1379 -/
  | .boxGet => b!"box_get" /- expr.go:1333-1335 -/
  | .boxPut => b!"box_put" /- expr.go:1350-1352 -/
  | .args => b!"args" /- expr.go:2130-2132 -/
  | .gloadss => b!"gloadss" /- expr.go:2145-2147 -/

/-- Opcodes with one `uint8` immediate. -/
inductive U8Op where
  | intc | bytec | arg | load | store | gloads | gaid | bury | popn | dupn | dig | cover
  | uncover | replace2
deriving DecidableEq, Repr

/-- Opcodes with two `uint8` immediates: `GloadExpr{Group, Index}`,
`SubstringExpr{Start, End}`, `ExtractExpr{Start, Length}`, `ProtoExpr{Args, Results}`. -/
inductive U8U8Op where
  | gload | substring | extract | proto
deriving DecidableEq, Repr

/-- Opcodes with one `int8` immediate. -/
inductive I8Op where
  | frameDig | frameBury
deriving DecidableEq, Repr

/-- Opcodes whose only immediate is a field. -/
inductive FieldOp where
  | txn | gtxns | itxn | itxnField | txnas | gtxnsas | itxnas
  | globalOp | ecdsaVerify | ecdsaPkDecompress | ecdsaPkRecover | base64Decode | jsonRef
  | assetHoldingGet | assetParamsGet | appParamsGet | acctParamsGet | vrfVerify | block
  | ecAdd | ecScalarMul | ecPairingCheck | ecMultiExp | ecSubgroupCheck | ecMapTo
deriving DecidableEq, Repr

/-- Opcodes with a transaction field and an index. -/
inductive FieldIdxOp where
  | txna | gtxnsa | itxna
deriving DecidableEq, Repr

/-- Opcodes with a group index and a transaction field.  (`GtxnasExpr`, `GitxnExpr` and
`GitxnasExpr` call the group index `Index`.) -/
inductive GroupFieldOp where
  | gtxn | gitxn | gtxnas | gitxnas
deriving DecidableEq, Repr

/-- Opcodes with a group index, a transaction field and an index. -/
inductive GroupFieldIdxOp where
  | gtxna | gitxna
deriving DecidableEq, Repr

/-- Opcodes whose only immediate is a label. -/
inductive BranchOp where
  | bnz | bz | b | callsub
deriving DecidableEq, Repr

/-- An instruction (`Op`, compiler.go; the types of expr.go). -/
inductive Op where
  /-- `EmptyExpr` (expr.go:1491-1500). -/
  | empty
  /-- `LabelExpr` (expr.go:1195-1208). -/
  | label (name : Bytes)
  /-- `PragmaExpr` (expr.go:1399-1407). -/
  | pragma (version : Nat)
  /-- `CommentExpr` (expr.go:2564-2572). -/
  | comment (text : Bytes)
  | plain (k : Plain)
  | u8 (k : U8Op) (n : Nat)
  | u8u8 (k : U8U8Op) (m n : Nat)
  | i8 (k : I8Op) (i : Int)
  | field (k : FieldOp) (f : Nat)
  | fieldIdx (k : FieldIdxOp) (f i : Nat)
  | groupField (k : GroupFieldOp) (t f : Nat)
  | groupFieldIdx (k : GroupFieldIdxOp) (t f i : Nat)
  /-- `IntExpr` (expr.go:1266-1279). -/
  | int (v : Nat)
  /-- `PushIntExpr` (expr.go:1251-1264). -/
  | pushint (v : Nat)
  /-- `ByteExpr` (expr.go:1288-1327). -/
  | byte (v : Bytes)
  /-- `PushBytesExpr` (expr.go:1235-1249). -/
  | pushbytes (v : Bytes)
  /-- `AddrExpr` (expr.go:2249-2255). -/
  | addr (a : Bytes)
  /-- `MethodExpr` (expr.go:2233-2247). -/
  | method (sig : Bytes)
  /-- `IntcBlockExpr` (expr.go:705-725). -/
  | intcblock (vs : List Nat)
  /-- `PushIntsExpr` (expr.go:2207-2231). -/
  | pushints (vs : List Nat)
  /-- `BytecBlockExpr` (expr.go:807-827). -/
  | bytecblock (vs : List Bytes)
  /-- `PushBytessExpr` (expr.go:2257-2279). -/
  | pushbytess (vs : List Bytes)
  /-- `BnzExpr`, `BzExpr`, `BExpr`, `CallSubExpr` (expr.go:1409-1489, 1784-1802). -/
  | branch (k : BranchOp) (l : Bytes)
  /-- `SwitchExpr` (expr.go:1691-1734). -/
  | switch (ls : List Bytes)
  /-- `MatchExpr` (expr.go:1736-1782). -/
  | match_ (ls : List Bytes)
deriving DecidableEq, Repr

namespace Op

/-- The types with an `IsNop` method: `LabelExpr` (expr.go:1199), `PragmaExpr` (1403),
`EmptyExpr` (1498), `CommentExpr` (2568). -/
def isNop : Op → Bool
  | .empty => true
  | .label _ => true
  | .pragma _ => true
  | .comment _ => true
  | _ => false

/-- The types with an `IsTerminator` method: `ErrExpr` (expr.go:32), `RetSubExpr` (1679),
`ReturnExpr` (1694). -/
def isTerminator : Op → Bool
  | .plain .err => true
  | .plain .retsub => true
  | .plain .returnOp => true
  | _ => false

/-- `usesLabels`: the types with a `Labels` method (expr.go:1471, 1492, 1511, 1714, 1761,
1797), and the names of the labels they return; `none` for other types. -/
def labels? : Op → Option (List Bytes)
  | .branch _ l => some [l]
  | .switch ls => some ls
  | .match_ ls => some ls
  | _ => none

/-- The label names an instruction refers to. -/
def labels (o : Op) : List Bytes := o.labels?.getD []

end Op

/-- `ProgramMode` (process.go:829-848). -/
inductive ProgramMode where
  | app | sig
deriving DecidableEq, Repr

/-- A `minVersion` (both modes) or `modeMinVersion` call of a parse function. -/
inductive VersionDecl where
  | both (v : Nat)
  | mode (m : ProgramMode) (v : Nat)
deriving DecidableEq, Repr

/-- Which field reader a parse function calls: one of the `mustRead…Field` methods of its own
field group, or `mustReadTxnField` / `mustReadTxnaField` / `mustReadItxnField`. -/
inductive FieldReader where
  | group (g : FieldGroup)
  | txn (c : FieldContext)
deriving DecidableEq, Repr

/-- What a parse function reads from its line and emits. -/
inductive Shape where
  | plain (k : Plain)
  | u8 (k : U8Op)
  | u8u8 (k : U8U8Op)
  | i8 (k : I8Op)
  | field (r : FieldReader) (k : FieldOp)
  | fieldIdx (k : FieldIdxOp)
  | fieldOptIdx (k : FieldOp) (k' : FieldIdxOp)
  | groupField (c : FieldContext) (k : GroupFieldOp)
  | gtxn | gtxna | gitxna
  | int | pushint | byte | pushbytes | addr | method
  | intcblock | pushints | bytecblock | pushbytess
  | branch (k : BranchOp) | switch | match_
  | replace | extract
deriving DecidableEq, Repr

/-- `opListItem` (process.go:315-318). -/
structure OpEntry where
  name : Bytes
  decls : List VersionDecl
  shape : Shape
deriving DecidableEq, Repr


/-- `opsList` (process.go:320-513), in order, duplicates included.  The comment of a row gives
the lines of the parse function; `decls` are its `minVersion` / `modeMinVersion` calls and
`shape` says what it reads and emits. -/
def opsList : List OpEntry := [
  ⟨b!"replace", [.both 7], .replace⟩ /- opReplace 2006-2014 -/,
  ⟨b!"byte", [], .byte⟩ /- opByte 1582-1585 -/,
  ⟨b!"int", [], .int⟩ /- opInt 1587-1590 -/,
  ⟨b!"method", [], .method⟩ /- opMethod 1592-1595 -/,
  ⟨b!"addr", [], .addr⟩ /- opAddr 1577-1580 -/,
  ⟨b!"err", [], .plain .err⟩ /- opErr 1597-1599 -/,
  ⟨b!"sha256", [.both 1], .plain .sha256⟩ /- opSHA256 1601-1604 -/,
  ⟨b!"keccak256", [.both 1], .plain .keccak256⟩ /- opKeccak256 1606-1609 -/,
  ⟨b!"sha512_256", [.both 1], .plain .sha512_256⟩ /- opSHA512_256 1611-1614 -/,
  ⟨b!"sha256", [.both 1], .plain .sha256⟩ /- opSHA256 1601-1604 -/,
  ⟨b!"keccak256", [.both 1], .plain .keccak256⟩ /- opKeccak256 1606-1609 -/,
  ⟨b!"sha512_256", [.both 1], .plain .sha512_256⟩ /- opSHA512_256 1611-1614 -/,
  ⟨b!"ed25519verify", [.mode .sig 1, .mode .app 5], .plain .ed25519verify⟩ /- opEd25519Verify 1615-1619 -/,
  ⟨b!"ecdsa_verify", [.both 5], .field (.group .ecdsa) .ecdsaVerify⟩ /- opEcdsaVerify 1621-1625 -/,
  ⟨b!"ecdsa_pk_decompress", [.both 5], .field (.group .ecdsa) .ecdsaPkDecompress⟩ /- opEcdsaPkDecompress 1626-1630 -/,
  ⟨b!"ecdsa_pk_recover", [.both 5], .field (.group .ecdsa) .ecdsaPkRecover⟩ /- opEcdsaPkRecover 1632-1636 -/,
  ⟨b!"+", [], .plain .plus⟩ /- opPlus 1638-1640 -/,
  ⟨b!"-", [], .plain .minus⟩ /- opMinus 1641-1643 -/,
  ⟨b!"/", [], .plain .div⟩ /- opDiv 1644-1646 -/,
  ⟨b!"*", [], .plain .mul⟩ /- opMul 1647-1649 -/,
  ⟨b!"<", [], .plain .lt⟩ /- opLt 1650-1652 -/,
  ⟨b!">", [], .plain .gt⟩ /- opGt 1653-1655 -/,
  ⟨b!"<=", [], .plain .le⟩ /- opLe 1656-1658 -/,
  ⟨b!">=", [], .plain .ge⟩ /- opGe 1659-1661 -/,
  ⟨b!"&&", [], .plain .and⟩ /- opAnd 1662-1664 -/,
  ⟨b!"||", [], .plain .or⟩ /- opOr 1665-1667 -/,
  ⟨b!"==", [], .plain .eq⟩ /- opEq 1668-1670 -/,
  ⟨b!"!=", [], .plain .neq⟩ /- opNeq 1671-1673 -/,
  ⟨b!"!", [], .plain .not⟩ /- opNot 1674-1676 -/,
  ⟨b!"len", [], .plain .len⟩ /- opLen 1677-1679 -/,
  ⟨b!"itob", [], .plain .itob⟩ /- opItob 1680-1682 -/,
  ⟨b!"btoi", [], .plain .btoi⟩ /- opBtoi 1683-1685 -/,
  ⟨b!"%", [], .plain .mod⟩ /- opModulo 1686-1688 -/,
  ⟨b!"|", [], .plain .bitOr⟩ /- opBitOr 1689-1691 -/,
  ⟨b!"&", [], .plain .bitAnd⟩ /- opBitAnd 1692-1694 -/,
  ⟨b!"^", [], .plain .bitXor⟩ /- opBitXor 1695-1697 -/,
  ⟨b!"~", [], .plain .bitNot⟩ /- opBitNot 1698-1700 -/,
  ⟨b!"mulw", [], .plain .mulw⟩ /- opMulw 1701-1703 -/,
  ⟨b!"addw", [.both 2], .plain .addw⟩ /- opAddw 1704-1707 -/,
  ⟨b!"divmodw", [.both 4], .plain .divmodw⟩ /- opDivModw 1708-1711 -/,
  ⟨b!"intcblock", [], .intcblock⟩ /- opIntConstBlock 1712-1716 -/,
  ⟨b!"intc", [], .u8 .intc⟩ /- opIntConstLoad 1718-1721 -/,
  ⟨b!"intc_0", [], .plain .intc_0⟩ /- opIntConst0 1723-1725 -/,
  ⟨b!"intc_1", [], .plain .intc_1⟩ /- opIntConst1 1726-1728 -/,
  ⟨b!"intc_2", [], .plain .intc_2⟩ /- opIntConst2 1729-1731 -/,
  ⟨b!"intc_3", [], .plain .intc_3⟩ /- opIntConst3 1732-1734 -/,
  ⟨b!"bytecblock", [], .bytecblock⟩ /- opByteConstBlock 1735-1739 -/,
  ⟨b!"bytec", [], .u8 .bytec⟩ /- opByteConstLoad 1741-1744 -/,
  ⟨b!"bytec_0", [], .plain .bytec_0⟩ /- opByteConst0 1746-1748 -/,
  ⟨b!"bytec_1", [], .plain .bytec_1⟩ /- opByteConst1 1749-1751 -/,
  ⟨b!"bytec_2", [], .plain .bytec_2⟩ /- opByteConst2 1752-1754 -/,
  ⟨b!"bytec_3", [], .plain .bytec_3⟩ /- opByteConst3 1755-1757 -/,
  ⟨b!"arg", [.mode .sig 1, .mode .app 0], .u8 .arg⟩ /- opArg 1758-1763 -/,
  ⟨b!"arg_0", [.mode .sig 1, .mode .app 0], .plain .arg_0⟩ /- opArg0 1764-1768 -/,
  ⟨b!"arg_1", [.mode .sig 1, .mode .app 0], .plain .arg_1⟩ /- opArg1 1769-1773 -/,
  ⟨b!"arg_2", [.mode .sig 1, .mode .app 0], .plain .arg_2⟩ /- opArg2 1774-1778 -/,
  ⟨b!"arg_3", [.mode .sig 1, .mode .app 0], .plain .arg_3⟩ /- opArg3 1779-1783 -/,
  ⟨b!"txn", [], .fieldOptIdx .txn .txna⟩ /- opTxn 1784-1793 -/,
  ⟨b!"global", [], .field (.group .global) .globalOp⟩ /- opGlobal 1794-1798 -/,
  ⟨b!"gtxn", [], .gtxn⟩ /- opGtxn 1800-1809 -/,
  ⟨b!"load", [], .u8 .load⟩ /- opLoad 1811-1814 -/,
  ⟨b!"store", [], .u8 .store⟩ /- opStore 1815-1818 -/,
  ⟨b!"txna", [.both 2], .fieldIdx .txna⟩ /- opTxna 1820-1827 -/,
  ⟨b!"gtxna", [.both 2], .gtxna⟩ /- opGtxna 1829-1837 -/,
  ⟨b!"gtxns", [.both 3], .fieldOptIdx .gtxns .gtxnsa⟩ /- opGtxns 1838-1849 -/,
  ⟨b!"gtxnsa", [.both 3], .fieldIdx .gtxnsa⟩ /- opGtxnsa 1851-1858 -/,
  ⟨b!"gload", [.mode .sig 0, .mode .app 4], .u8u8 .gload⟩ /- opGload 1860-1868 -/,
  ⟨b!"gloads", [.mode .sig 0, .mode .app 4], .u8 .gloads⟩ /- opGloads 1870-1875 -/,
  ⟨b!"gaid", [.mode .sig 0, .mode .app 4], .u8 .gaid⟩ /- opGaid 1877-1883 -/,
  ⟨b!"gaids", [.mode .sig 0, .mode .app 4], .plain .gaids⟩ /- opGaids 1884-1889 -/,
  ⟨b!"loads", [.both 5], .plain .loads⟩ /- opLoads 1890-1894 -/,
  ⟨b!"stores", [.both 5], .plain .stores⟩ /- opStores 1895-1898 -/,
  ⟨b!"bnz", [], .branch .bnz⟩ /- opBnz 1899-1902 -/,
  ⟨b!"bz", [.both 2], .branch .bz⟩ /- opBz 1903-1907 -/,
  ⟨b!"b", [.both 2], .branch .b⟩ /- opB 1908-1912 -/,
  ⟨b!"return", [.both 2], .plain .returnOp⟩ /- opReturn 1913-1916 -/,
  ⟨b!"assert", [.both 3], .plain .assert⟩ /- opAssert 1917-1920 -/,
  ⟨b!"bury", [.both 8], .u8 .bury⟩ /- opBury 1922-1927 -/,
  ⟨b!"popn", [.both 8], .u8 .popn⟩ /- opPopN 1929-1934 -/,
  ⟨b!"dupn", [.both 8], .u8 .dupn⟩ /- opDupN 1935-1940 -/,
  ⟨b!"pop", [], .plain .pop⟩ /- opPop 1942-1944 -/,
  ⟨b!"dup", [], .plain .dup⟩ /- opDup 1945-1947 -/,
  ⟨b!"dup2", [.both 2], .plain .dup2⟩ /- opDup2 1948-1951 -/,
  ⟨b!"dig", [.both 3], .u8 .dig⟩ /- opDig 1952-1956 -/,
  ⟨b!"swap", [.both 3], .plain .swap⟩ /- opSwap 1957-1960 -/,
  ⟨b!"select", [.both 3], .plain .select⟩ /- opSelect 1961-1964 -/,
  ⟨b!"cover", [.both 5], .u8 .cover⟩ /- opCover 1965-1969 -/,
  ⟨b!"uncover", [.both 5], .u8 .uncover⟩ /- opUncover 1970-1974 -/,
  ⟨b!"concat", [.both 2], .plain .concat⟩ /- opConcat 1975-1978 -/,
  ⟨b!"substring", [.both 2], .u8u8 .substring⟩ /- opSubstring 1979-1984 -/,
  ⟨b!"substring3", [.both 2], .plain .substring3⟩ /- opSubstring3 1985-1988 -/,
  ⟨b!"getbit", [.both 3], .plain .getbit⟩ /- opGetBit 1989-1992 -/,
  ⟨b!"setbit", [.both 3], .plain .setbit⟩ /- opSetBit 1993-1996 -/,
  ⟨b!"getbyte", [.both 3], .plain .getbyte⟩ /- opGetByte 1997-2000 -/,
  ⟨b!"setbyte", [.both 3], .plain .setbyte⟩ /- opSetByte 2001-2004 -/,
  ⟨b!"extract", [.both 5], .extract⟩ /- opExtract 2016-2025 -/,
  ⟨b!"extract3", [.both 5], .plain .extract3⟩ /- opExtract3 2027-2030 -/,
  ⟨b!"extract_uint16", [.both 5], .plain .extractUint16⟩ /- opExtract16Bits 2031-2034 -/,
  ⟨b!"extract_uint32", [.both 5], .plain .extractUint32⟩ /- opExtract32Bits 2035-2038 -/,
  ⟨b!"extract_uint64", [.both 5], .plain .extractUint64⟩ /- opExtract64Bits 2039-2042 -/,
  ⟨b!"replace2", [.both 7], .u8 .replace2⟩ /- opReplace2 2043-2047 -/,
  ⟨b!"replace3", [.both 7], .plain .replace3⟩ /- opReplace3 2048-2051 -/,
  ⟨b!"base64_decode", [.both 7], .field (.group .base64) .base64Decode⟩ /- opBase64Decode 2052-2056 -/,
  ⟨b!"json_ref", [.both 7], .field (.group .jsonRef) .jsonRef⟩ /- opJSONRef 2057-2061 -/,
  ⟨b!"balance", [.mode .sig 0, .mode .app 2], .plain .balance⟩ /- opBalance 2062-2067 -/,
  ⟨b!"balance", [.mode .sig 0, .mode .app 2], .plain .balance⟩ /- opBalance 2062-2067 -/,
  ⟨b!"app_opted_in", [.mode .sig 0, .mode .app 2], .plain .appOptedIn⟩ /- opAppOptedIn 2068-2072 -/,
  ⟨b!"app_local_get", [.mode .sig 0, .mode .app 2], .plain .appLocalGet⟩ /- opAppLocalGet 2073-2077 -/,
  ⟨b!"app_local_get_ex", [.mode .sig 0, .mode .app 2], .plain .appLocalGetEx⟩ /- opAppLocalGetEx 2078-2082 -/,
  ⟨b!"app_global_get", [.mode .sig 0, .mode .app 2], .plain .appGlobalGet⟩ /- opAppGlobalGet 2083-2087 -/,
  ⟨b!"app_global_get_ex", [.mode .sig 0, .mode .app 2], .plain .appGlobalGetEx⟩ /- opAppGlobalGetEx 2088-2092 -/,
  ⟨b!"app_local_put", [.mode .sig 0, .mode .app 2], .plain .appLocalPut⟩ /- opAppLocalPut 2093-2097 -/,
  ⟨b!"app_global_put", [.mode .sig 0, .mode .app 2], .plain .appGlobalPut⟩ /- opAppGlobalPut 2098-2102 -/,
  ⟨b!"app_local_del", [.mode .sig 0, .mode .app 2], .plain .appLocalDel⟩ /- opAppLocalDel 2103-2107 -/,
  ⟨b!"app_global_del", [.mode .sig 0, .mode .app 2], .plain .appGlobalDel⟩ /- opAppGlobalDel 2108-2112 -/,
  ⟨b!"asset_holding_get", [.mode .sig 0, .mode .app 2], .field (.group .assetHolding) .assetHoldingGet⟩ /- opAssetHoldingGet 2113-2120 -/,
  ⟨b!"asset_params_get", [.mode .sig 0, .mode .app 2], .field (.group .assetParams) .assetParamsGet⟩ /- opAssetParamsGet 2121-2126 -/,
  ⟨b!"app_params_get", [.mode .sig 0, .mode .app 5], .field (.group .appParams) .appParamsGet⟩ /- opAppParamsGet 2127-2132 -/,
  ⟨b!"acct_params_get", [.mode .sig 0, .mode .app 6], .field (.group .acctParams) .acctParamsGet⟩ /- opAcctParamsGet 2133-2138 -/,
  ⟨b!"min_balance", [.mode .sig 0, .mode .app 3], .plain .minBalance⟩ /- opMinBalance 2139-2143 -/,
  ⟨b!"pushbytes", [.both 3], .pushbytes⟩ /- opPushBytes 2144-2148 -/,
  ⟨b!"pushint", [.both 3], .pushint⟩ /- opPushInt 2149-2153 -/,
  ⟨b!"pushbytess", [.both 8], .pushbytess⟩ /- opPushBytess 2154-2160 -/,
  ⟨b!"pushints", [.both 8], .pushints⟩ /- opPushInts 2161-2167 -/,
  ⟨b!"ed25519verify_bare", [.both 7], .plain .ed25519verifyBare⟩ /- opEd25519VerifyBare 2168-2171 -/,
  ⟨b!"callsub", [.both 4], .branch .callsub⟩ /- opCallSub 2172-2176 -/,
  ⟨b!"retsub", [.both 4], .plain .retsub⟩ /- opRetSub 2177-2180 -/,
  ⟨b!"proto", [.both 8], .u8u8 .proto⟩ /- opProto 2181-2187 -/,
  ⟨b!"frame_dig", [.both 8], .i8 .frameDig⟩ /- opFrameDig 2188-2192 -/,
  ⟨b!"frame_bury", [.both 8], .i8 .frameBury⟩ /- opFrameBury 2193-2197 -/,
  ⟨b!"switch", [.both 8], .switch⟩ /- opSwitch 2198-2208 -/,
  ⟨b!"match", [.both 8], .match_⟩ /- opMatch 2209-2219 -/,
  ⟨b!"shl", [.both 4], .plain .shl⟩ /- opShiftLeft 2220-2223 -/,
  ⟨b!"shr", [.both 4], .plain .shr⟩ /- opShiftRight 2224-2227 -/,
  ⟨b!"sqrt", [.both 4], .plain .sqrt⟩ /- opSqrt 2228-2231 -/,
  ⟨b!"bitlen", [.both 4], .plain .bitlen⟩ /- opBitLen 2232-2235 -/,
  ⟨b!"exp", [.both 4], .plain .exp⟩ /- opExp 2236-2239 -/,
  ⟨b!"expw", [.both 4], .plain .expw⟩ /- opExpw 2240-2243 -/,
  ⟨b!"bsqrt", [.both 6], .plain .bsqrt⟩ /- opBytesSqrt 2244-2247 -/,
  ⟨b!"divw", [.both 6], .plain .divw⟩ /- opDivw 2248-2251 -/,
  ⟨b!"sha3_256", [.both 7], .plain .sha3_256⟩ /- opSHA3_256 2252-2255 -/,
  ⟨b!"ec_add", [.both 9], .field (.group .ecGroup) .ecAdd⟩ /- opEcAdd 2256-2260 -/,
  ⟨b!"ec_scalar_mul", [.both 9], .field (.group .ecGroup) .ecScalarMul⟩ /- opEcScalarMul 2261-2265 -/,
  ⟨b!"ec_pairing_check", [.both 9], .field (.group .ecGroup) .ecPairingCheck⟩ /- opEcPairingCheck 2266-2270 -/,
  ⟨b!"ec_multi_exp", [.both 9], .field (.group .ecGroup) .ecMultiExp⟩ /- opEcMultiExp 2272-2276 -/,
  ⟨b!"ec_subgroup_check", [.both 9], .field (.group .ecGroup) .ecSubgroupCheck⟩ /- opEcSubgroupCheck 2278-2282 -/,
  ⟨b!"ec_map_to", [.both 9], .field (.group .ecGroup) .ecMapTo⟩ /- opEcMapTo 2284-2288 -/,
  ⟨b!"b+", [.both 4], .plain .bplus⟩ /- opBytesPlus 2290-2293 -/,
  ⟨b!"b-", [.both 4], .plain .bminus⟩ /- opBytesMinus 2294-2297 -/,
  ⟨b!"b/", [.both 4], .plain .bdiv⟩ /- opBytesDiv 2298-2301 -/,
  ⟨b!"b*", [.both 4], .plain .bmul⟩ /- opBytesMul 2302-2305 -/,
  ⟨b!"b<", [.both 4], .plain .blt⟩ /- opBytesLt 2306-2309 -/,
  ⟨b!"b>", [.both 4], .plain .bgt⟩ /- opBytesGt 2310-2313 -/,
  ⟨b!"b<=", [.both 4], .plain .ble⟩ /- opBytesLe 2314-2317 -/,
  ⟨b!"b>=", [.both 4], .plain .bge⟩ /- opBytesGe 2318-2321 -/,
  ⟨b!"b==", [.both 4], .plain .beq⟩ /- opBytesEq 2322-2325 -/,
  ⟨b!"b!=", [.both 4], .plain .bneq⟩ /- opBytesNeq 2326-2329 -/,
  ⟨b!"b%", [.both 4], .plain .bmod⟩ /- opBytesModulo 2330-2333 -/,
  ⟨b!"b|", [.both 4], .plain .bbitOr⟩ /- opBytesBitOr 2334-2337 -/,
  ⟨b!"b&", [.both 4], .plain .bbitAnd⟩ /- opBytesBitAnd 2338-2341 -/,
  ⟨b!"b^", [.both 4], .plain .bbitXor⟩ /- opBytesBitXor 2342-2345 -/,
  ⟨b!"b~", [.both 4], .plain .bbitNot⟩ /- opBytesBitNot 2346-2349 -/,
  ⟨b!"bzero", [.both 4], .plain .bzero⟩ /- opBytesZero 2350-2353 -/,
  ⟨b!"log", [.mode .sig 0, .mode .app 5], .plain .log⟩ /- opLog 2354-2358 -/,
  ⟨b!"itxn_begin", [.mode .sig 0, .mode .app 5], .plain .itxnBegin⟩ /- opTxBegin 2359-2363 -/,
  ⟨b!"itxn_field", [.mode .sig 0, .mode .app 5], .field (.txn .itxn) .itxnField⟩ /- opItxnField 2364-2369 -/,
  ⟨b!"itxn_submit", [.mode .sig 0, .mode .app 5], .plain .itxnSubmit⟩ /- opItxnSubmit 2370-2374 -/,
  ⟨b!"itxn", [.mode .sig 0, .mode .app 5], .field (.txn .txn) .itxn⟩ /- opItxn 2375-2380 -/,
  ⟨b!"itxna", [.mode .sig 0, .mode .app 5], .fieldIdx .itxna⟩ /- opItxna 2381-2387 -/,
  ⟨b!"itxn_next", [.mode .sig 0, .mode .app 6], .plain .itxnNext⟩ /- opItxnNext 2388-2392 -/,
  ⟨b!"gitxn", [.mode .sig 0, .mode .app 6], .groupField .txn .gitxn⟩ /- opGitxn 2393-2399 -/,
  ⟨b!"gitxna", [.mode .sig 0, .mode .app 6], .gitxna⟩ /- opGitxna 2400-2409 -/,
  ⟨b!"box_create", [.mode .sig 0, .mode .app 8], .plain .boxCreate⟩ /- opBoxCreate 2410-2414 -/,
  ⟨b!"box_extract", [.mode .sig 0, .mode .app 8], .plain .boxExtract⟩ /- opBoxExtract 2415-2419 -/,
  ⟨b!"box_replace", [.mode .sig 0, .mode .app 8], .plain .boxReplace⟩ /- opBoxReplace 2420-2424 -/,
  ⟨b!"box_del", [.mode .sig 0, .mode .app 8], .plain .boxDel⟩ /- opBoxDel 2425-2429 -/,
  ⟨b!"box_len", [.mode .sig 0, .mode .app 8], .plain .boxLen⟩ /- opBoxLen 2430-2434 -/,
  ⟨b!"box_get", [.mode .sig 0, .mode .app 8], .plain .boxGet⟩ /- opBoxGet 2435-2439 -/,
  ⟨b!"box_put", [.mode .sig 0, .mode .app 8], .plain .boxPut⟩ /- opBoxPut 2440-2444 -/,
  ⟨b!"txnas", [.both 5], .field (.txn .txna) .txnas⟩ /- opTxnas 2445-2449 -/,
  ⟨b!"gtxnas", [.both 5], .groupField .txna .gtxnas⟩ /- opGtxnas 2450-2455 -/,
  ⟨b!"gtxnsas", [.both 5], .field (.txn .txna) .gtxnsas⟩ /- opGtxnsas 2456-2460 -/,
  ⟨b!"args", [.mode .sig 0, .mode .app 5], .plain .args⟩ /- opArgs 2461-2466 -/,
  ⟨b!"gloadss", [.mode .sig 0, .mode .app 6], .plain .gloadss⟩ /- opGloadss 2467-2471 -/,
  ⟨b!"itxnas", [.mode .sig 0, .mode .app 6], .field (.txn .txna) .itxnas⟩ /- opItxnas 2472-2477 -/,
  ⟨b!"gitxnas", [.mode .sig 0, .mode .app 6], .groupField .txna .gitxnas⟩ /- opGitxnas 2478-2484 -/,
  ⟨b!"vrf_verify", [.both 7], .field (.group .vrf) .vrfVerify⟩ /- opVrfVerify 2485-2489 -/,
  ⟨b!"block", [.both 7], .field (.group .block) .block⟩ /- opBlock 2490-2494 -/]

end Teal
