import Verif.Model.Query
import Verif.Model.Print

/-!
# Model: the operands of opcodes as they are shown and inserted

`Ops` (process.go:1451-1547) runs every parse function with a `docContext` and makes the signatures of
what it reads; `textDocument/completion` (lsp/lsp.go:1427-1513) makes the texts to insert.
-/

namespace Teal

/-- `NewOpArgType.String` (process.go:237-288). -/
def ArgType.text : ArgType → Bytes
  | .constInt => b!"uint64"
  | .uint64 => b!"uint64"
  | .uint8 => b!"uint8"
  | .int8 => b!"int8"
  | .bytes => b!"bytes"
  | .label => b!"label name"
  | .signature => b!"signature"
  | .addr => b!"address"
  | .field (.txn .txna) => b!"transaction array field index"
  | .field (.txn .txn) => b!"transaction field index"
  | .field (.txn .itxn) => b!"internal transaction field index"
  | .field (.group .jsonRef) => b!"json_Ref"
  | .field (.group .ecdsa) => b!"ECDSA Curve"
  | .field (.group .global) => b!"global field index"
  | .field (.group .assetHolding) => b!"asset holding field index"
  | .field (.group .assetParams) => b!"asset params field index"
  | .field (.group .appParams) => b!"app params field index"
  | .field (.group .acctParams) => b!"account params field index"
  | .field (.group .vrf) => b!"parameters index"
  | .field (.group .base64) => b!"base64 encoding"
  | .field (.group .block) => b!"block field"
  | .field (.group .ecGroup) => b!"EC group field index"
  | .field (.group .txn) => b!"(none)"

/-- The names the parse functions give to what they read, in order; functions that read nothing are left
out.  The comment of a row gives the lines. -/
def operandNames : List (Bytes × List Bytes) := [
  (b!"replace", [b!"s"]) /- opReplace 2006-2014 -/,
  (b!"byte", [b!"value"]) /- opByte 1582-1585 -/,
  (b!"int", [b!"value"]) /- opInt 1587-1590 -/,
  (b!"method", [b!"signature"]) /- opMethod 1592-1595 -/,
  (b!"addr", [b!"address"]) /- opAddr 1577-1580 -/,
  (b!"ecdsa_verify", [b!"curve index"]) /- opEcdsaVerify 1621-1625 -/,
  (b!"ecdsa_pk_decompress", [b!"curve index"]) /- opEcdsaPkDecompress 1626-1630 -/,
  (b!"ecdsa_pk_recover", [b!"curve index"]) /- opEcdsaPkRecover 1632-1636 -/,
  (b!"intcblock", [b!"value"]) /- opIntConstBlock 1712-1716 -/,
  (b!"intc", [b!"value"]) /- opIntConstLoad 1718-1721 -/,
  (b!"bytecblock", [b!"bytes"]) /- opByteConstBlock 1735-1739 -/,
  (b!"bytec", [b!"index"]) /- opByteConstLoad 1741-1744 -/,
  (b!"arg", [b!"index"]) /- opArg 1758-1763 -/,
  (b!"txn", [b!"f", b!"i"]) /- opTxn 1784-1793 -/,
  (b!"global", [b!"field"]) /- opGlobal 1794-1798 -/,
  (b!"gtxn", [b!"t", b!"f", b!"i"]) /- opGtxn 1800-1809 -/,
  (b!"load", [b!"i"]) /- opLoad 1811-1814 -/,
  (b!"store", [b!"i"]) /- opStore 1815-1818 -/,
  (b!"txna", [b!"f", b!"i"]) /- opTxna 1820-1827 -/,
  (b!"gtxna", [b!"t", b!"f", b!"i"]) /- opGtxna 1829-1837 -/,
  (b!"gtxns", [b!"f", b!"i"]) /- opGtxns 1838-1849 -/,
  (b!"gtxnsa", [b!"f", b!"i"]) /- opGtxnsa 1851-1858 -/,
  (b!"gload", [b!"t", b!"i"]) /- opGload 1860-1868 -/,
  (b!"gloads", [b!"i"]) /- opGloads 1870-1875 -/,
  (b!"gaid", [b!"t"]) /- opGaid 1877-1883 -/,
  (b!"bnz", [b!"label"]) /- opBnz 1899-1902 -/,
  (b!"bz", [b!"label"]) /- opBz 1903-1907 -/,
  (b!"b", [b!"label"]) /- opB 1908-1912 -/,
  (b!"bury", [b!"n"]) /- opBury 1922-1927 -/,
  (b!"popn", [b!"n"]) /- opPopN 1929-1934 -/,
  (b!"dupn", [b!"n"]) /- opDupN 1935-1940 -/,
  (b!"dig", [b!"n"]) /- opDig 1952-1956 -/,
  (b!"cover", [b!"n"]) /- opCover 1965-1969 -/,
  (b!"uncover", [b!"index"]) /- opUncover 1970-1974 -/,
  (b!"substring", [b!"s", b!"e"]) /- opSubstring 1979-1984 -/,
  (b!"extract", [b!"s", b!"l"]) /- opExtract 2016-2025 -/,
  (b!"replace2", [b!"s"]) /- opReplace2 2043-2047 -/,
  (b!"base64_decode", [b!"e"]) /- opBase64Decode 2052-2056 -/,
  (b!"json_ref", [b!"r"]) /- opJSONRef 2057-2061 -/,
  (b!"asset_holding_get", [b!"f"]) /- opAssetHoldingGet 2113-2120 -/,
  (b!"asset_params_get", [b!"f"]) /- opAssetParamsGet 2121-2126 -/,
  (b!"app_params_get", [b!"f"]) /- opAppParamsGet 2127-2132 -/,
  (b!"acct_params_get", [b!"f"]) /- opAcctParamsGet 2133-2138 -/,
  (b!"pushbytes", [b!"value"]) /- opPushBytes 2144-2148 -/,
  (b!"pushint", [b!"value"]) /- opPushInt 2149-2153 -/,
  (b!"pushbytess", [b!"value"]) /- opPushBytess 2154-2160 -/,
  (b!"pushints", [b!"value"]) /- opPushInts 2161-2167 -/,
  (b!"callsub", [b!"label"]) /- opCallSub 2172-2176 -/,
  (b!"proto", [b!"a", b!"r"]) /- opProto 2181-2187 -/,
  (b!"frame_dig", [b!"index"]) /- opFrameDig 2188-2192 -/,
  (b!"frame_bury", [b!"index"]) /- opFrameBury 2193-2197 -/,
  (b!"switch", [b!"label"]) /- opSwitch 2198-2208 -/,
  (b!"match", [b!"label"]) /- opMatch 2209-2219 -/,
  (b!"ec_add", [b!"curve"]) /- opEcAdd 2256-2260 -/,
  (b!"ec_scalar_mul", [b!"curve"]) /- opEcScalarMul 2261-2265 -/,
  (b!"ec_pairing_check", [b!"curve"]) /- opEcPairingCheck 2266-2270 -/,
  (b!"ec_multi_exp", [b!"curve"]) /- opEcMultiExp 2272-2276 -/,
  (b!"ec_subgroup_check", [b!"curve"]) /- opEcSubgroupCheck 2278-2282 -/,
  (b!"ec_map_to", [b!"curve"]) /- opEcMapTo 2284-2288 -/,
  (b!"itxn_field", [b!"f"]) /- opItxnField 2364-2369 -/,
  (b!"itxn", [b!"f"]) /- opItxn 2375-2380 -/,
  (b!"itxna", [b!"f", b!"i"]) /- opItxna 2381-2387 -/,
  (b!"gitxn", [b!"t", b!"f"]) /- opGitxn 2393-2399 -/,
  (b!"gitxna", [b!"t", b!"f", b!"i"]) /- opGitxna 2400-2409 -/,
  (b!"txnas", [b!"f"]) /- opTxnas 2445-2449 -/,
  (b!"gtxnas", [b!"t", b!"f"]) /- opGtxnas 2450-2455 -/,
  (b!"gtxnsas", [b!"f"]) /- opGtxnsas 2456-2460 -/,
  (b!"itxnas", [b!"f"]) /- opItxnas 2472-2477 -/,
  (b!"gitxnas", [b!"t", b!"f"]) /- opGitxnas 2478-2484 -/,
  (b!"vrf_verify", [b!"f"]) /- opVrfVerify 2485-2489 -/,
  (b!"block", [b!"f"]) /- opBlock 2490-2494 -/]

/-- `opItemArg` (process.go:290-295). -/
structure DocArg where
  name : Bytes
  type : ArgType
  array : Bool
  optional : Bool
deriving DecidableEq, Repr

/-- The `Optional` that the methods of `docContext` pass to `arg`: it is set by `maybeReadUint8` only
(process.go:679-689). -/
def Shape.optionals : Shape → List Bool
  | .fieldOptIdx _ _ => [false, true]
  | .gtxn => [false, false, true]
  | .replace => [true]
  | .extract => [true, false]
  | s => s.args.map fun _ => false

/-- `docContext.arg` (process.go:555-563), once for each argument; `optional` is the flag of the context. -/
def docArgsFrom (optional : Bool) : List DocArg → List DocArg
  | [] => []
  | a :: as => if optional then { a with optional := true } :: docArgsFrom true as else a :: docArgsFrom a.optional as

/-- `c.args` after running the parse function (process.go:1458-1464). -/
def OpEntry.docArgs (e : OpEntry) : List DocArg :=
  docArgsFrom false ((((operandNames.find? fun p => p.1 == e.name).map (·.2)).getD []).zip (e.shape.args.zip e.shape.optionals) |>.map
    fun p => ⟨p.1, p.2.1.type, p.2.1.array, p.2.2⟩)

/-- `name` with the mark of a list (process.go:1484-1487, 1510-1513). -/
def DocArg.listed (a : DocArg) (name : Bytes) : Bytes := if a.array then name ++ b!", ..." else name

/-- One of `fullnames` (process.go:1482-1497).  The flag `optional` there is never set, so every optional
argument gets an opening bracket, and 1502-1504 is never reached. -/
def DocArg.full (a : DocArg) : Bytes :=
  let name := b!"{" ++ a.listed (a.type.text ++ b!" : " ++ a.name) ++ b!"}"
  if a.optional then b!"[" ++ name else name

/-- `FullSig` (process.go:1479-1505, 1532). -/
def OpEntry.fullSig (e : OpEntry) : Bytes := e.name ++ b!" " ++ joinSpace (e.docArgs.map DocArg.full)

/-- The loop over `shortnames` (process.go:1509-1523) with its flag `optional`. -/
def shortNames (optional : Bool) : List DocArg → List Bytes × Bool
  | [] => ([], optional)
  | a :: as =>
    let name := a.listed a.name
    let r := shortNames (optional || a.optional) as
    ((if a.optional && !optional then b!"[" ++ name else name) :: r.1, r.2)

/-- `xs[len(xs)-1] += s` -/
def appendLast (s : Bytes) : List Bytes → List Bytes
  | [] => []
  | [x] => [x ++ s]
  | x :: xs => x :: appendLast s xs

/-- `ArgsSig` (process.go:1507-1531). -/
def OpEntry.argsSig (e : OpEntry) : Bytes :=
  let r := shortNames false e.docArgs
  joinSpace (if r.2 then appendLast b!"]" r.1 else r.1)

/-- `fmt.Sprintf("${%d:%s}", i, name)` -/
def placeholder (i : Nat) (name : Bytes) : Bytes := b!"${" ++ formatUint i ++ b!":" ++ name ++ b!"}"

/-- The placeholders of lsp/lsp.go:1477-1484. -/
def placeholders (from_ : Nat) : List Bytes → List Bytes
  | [] => []
  | n :: ns => placeholder from_ n :: placeholders (from_ + 1) ns

/-- `insert` (lsp/lsp.go:1475-1491). -/
def OpEntry.insert (e : OpEntry) : Bytes :=
  if e.docArgs = [] then [] else e.name ++ b!" " ++ joinSpace (placeholders 1 (e.docArgs.map (·.name)))

/-- `strings.ToLower` of ASCII letters. -/
def lowerASCII (s : Bytes) : Bytes := s.map fun c => if 65 ≤ c ∧ c ≤ 90 then c + 32 else c

/-- `OnCompletionNames` (go_algorand.go:891, 1825-1828). -/
def onCompletionNames : List Bytes := (List.range 6).map onCompletionStr

/-- The loop at lsp/lsp.go:1438-1452: `bt`, from tab stop `i + 1` on. -/
def socLabels (n : Nat) : Nat → List Bytes → Bytes
  | _, [] => []
  | i, name :: names =>
    placeholder (i + 1) (lowerASCII name) ++ b!":\n" ++
      (if i < n - 1 then b!"b " ++ placeholder (n + 2) b!"then" ++ b!"\n" else []) ++ b!"\n" ++ socLabels n (i + 1) names

/-- `InsertText` of the snippet `soc` (lsp/lsp.go:1436-1462). -/
def socText : Bytes :=
  let n := onCompletionNames.length
  b!"txn OnCompletion\nswitch " ++ joinSpace (placeholders 1 (onCompletionNames.map lowerASCII)) ++ b!"\n" ++
    (socLabels n 0 onCompletionNames ++ placeholder (n + 2) b!"then" ++ b!":\n$" ++ formatUint (n + 3))

/-- `InsertText` of the snippet `func` (lsp/lsp.go:1468). -/
def funcText : Bytes := b!"${1:sub}:\r\n\r\n\tproto ${2:0} ${3:0}\r\n\t${4}\r\n\tretsub\r\n"

/-- `Detail` and `InsertText` of the snippets (lsp/lsp.go:1456-1470). -/
def snippetTexts (name : Bytes) : Bytes × Bytes :=
  if name = b!"soc" then (b!"switch on OnCompletion", socText)
  else if name = b!"func" then (b!"create subroutine", funcText)
  else ([], [])

/-- The signature of a symbol (process.go:3334-3338). -/
def protoText (p : Nat × Nat) : Bytes := b!"in: " ++ formatUint p.1 ++ b!", out: " ++ formatUint p.2

end Teal
