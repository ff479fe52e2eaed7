import Verif.Spec.Literals
import Verif.Spec.Fields
import Verif.Spec.Consts
import Verif.Model.Op

/-!
# The instructions of the language and their operands

Which words make an instruction, and which.  `ver` is the program version in force, which decides
the field names; `addrOk` says which texts are addresses.
-/

namespace Teal.Spec

open Teal

/-! ## Operands -/

/-- A number from 0 to 255 in decimal digits. -/
def IsByte (w : Bytes) (n : Nat) : Prop := w ≠ [] ∧ ∃ ds, PlainDigits 10 w ds ∧ n = numeral 10 ds ∧ n < 256

/-- A 64-bit integer. -/
def IsUint (w : Bytes) (n : Nat) : Prop := IntLiteral w n ∧ n < 2 ^ 64

/-- A 64-bit integer or a named one. -/
def IsConst (w : Bytes) (n : Nat) : Prop := NamedConst w n ∨ IsUint w n

/-- A number from -128 to 127 in decimal digits. -/
def IsSmall (w : Bytes) (i : Int) : Prop := SignedDecimal w i ∧ -128 ≤ i ∧ i ≤ 127

/-- Field number `i` of a group by a name the version has, or by number. -/
def IsField (names : List DocField) (ver : Nat) (w : Bytes) (i : Nat) : Prop :=
  (∃ d, names[i]? = some d ∧ d.name = w ∧ d.since ≤ ver) ∨ ((∀ d ∈ names, d.name ≠ w) ∧ IsByte w i)

/-- The same for transaction fields; `ok` says which names are allowed. -/
def IsTxn (ok : DocTxnField → Prop) (w : Bytes) (i : Nat) : Prop :=
  (∃ d, txnFields[i]? = some d ∧ d.name = w ∧ ok d) ∨ ((∀ d ∈ txnFields, d.name ≠ w) ∧ IsByte w i)

/-- Any transaction field. -/
def IsTxnField (ver : Nat) : Bytes → Nat → Prop := IsTxn fun d => d.since ≤ ver

/-- A transaction field that is an array. -/
def IsArrayField (ver : Nat) : Bytes → Nat → Prop := IsTxn fun d => d.array = true ∧ d.since ≤ ver

/-- A transaction field that can be set in an inner transaction. -/
def IsInnerField (ver : Nat) : Bytes → Nat → Prop := IsTxn fun d => ∃ n, d.inner = some n ∧ n ≤ ver

/-- The words of a byte constant.  Base32 is what `base32DecodeAnyPadding` decodes, the decoder of
the Go library with either padding. -/
inductive IsBytes : List Bytes → Bytes → Prop
  | hex (s v : Bytes) (h : HexOf s v) : IsBytes [b!"0x" ++ s] v
  | base32 (p s v : Bytes) (hp : p ∈ [b!"base32(", b!"b32("]) (hs : 41 ∉ s)
      (h : base32DecodeAnyPadding s = some v) : IsBytes [p ++ s ++ [41]] v
  | base64 (p s v : Bytes) (hp : p ∈ [b!"base64(", b!"b64("]) (h : Base64Of s v) : IsBytes [p ++ s ++ [41]] v
  | base32' (p s v : Bytes) (hp : p ∈ [b!"base32", b!"b32"]) (h : base32DecodeAnyPadding s = some v) :
      IsBytes [p, s] v
  | base64' (p s v : Bytes) (hp : p ∈ [b!"base64", b!"b64"]) (h : Base64Of s v) : IsBytes [p, s] v
  | string (s v : Bytes) (h : Denotes s v) : IsBytes [34 :: (s ++ [34])] v

/-- Several values, one after the other. -/
inductive Several {α : Type} (one : List Bytes → α → Prop) : List Bytes → List α → Prop
  | nil : Several one [] []
  | cons (ws ws' : List Bytes) (v : α) (vs : List α) (h : one ws v) (h' : Several one ws' vs) :
      Several one (ws ++ ws') (v :: vs)

/-- A value written as one word. -/
def Single {α : Type} (one : Bytes → α → Prop) (ws : List Bytes) (v : α) : Prop := ∃ w, ws = [w] ∧ one w v

/-! ## Opcodes -/

/-- Opcodes without operands. -/
def plainOps : List (Bytes × Plain) :=
  [(b!"err", .err), (b!"sha256", .sha256), (b!"keccak256", .keccak256),
   (b!"sha512_256", .sha512_256), (b!"ed25519verify", .ed25519verify), (b!"+", .plus),
   (b!"-", .minus), (b!"/", .div), (b!"*", .mul), (b!"<", .lt), (b!">", .gt), (b!"<=", .le),
   (b!">=", .ge), (b!"&&", .and), (b!"||", .or), (b!"==", .eq), (b!"!=", .neq), (b!"!", .not),
   (b!"len", .len), (b!"itob", .itob), (b!"btoi", .btoi), (b!"%", .mod), (b!"|", .bitOr),
   (b!"&", .bitAnd), (b!"^", .bitXor), (b!"~", .bitNot), (b!"mulw", .mulw), (b!"addw", .addw),
   (b!"divmodw", .divmodw), (b!"intc_0", .intc_0), (b!"intc_1", .intc_1), (b!"intc_2", .intc_2),
   (b!"intc_3", .intc_3), (b!"bytec_0", .bytec_0), (b!"bytec_1", .bytec_1),
   (b!"bytec_2", .bytec_2), (b!"bytec_3", .bytec_3), (b!"arg_0", .arg_0), (b!"arg_1", .arg_1),
   (b!"arg_2", .arg_2), (b!"arg_3", .arg_3), (b!"gaids", .gaids), (b!"loads", .loads),
   (b!"stores", .stores), (b!"return", .returnOp), (b!"assert", .assert), (b!"pop", .pop),
   (b!"dup", .dup), (b!"dup2", .dup2), (b!"swap", .swap), (b!"select", .select),
   (b!"concat", .concat), (b!"substring3", .substring3), (b!"getbit", .getbit),
   (b!"setbit", .setbit), (b!"getbyte", .getbyte), (b!"setbyte", .setbyte),
   (b!"extract3", .extract3), (b!"extract_uint16", .extractUint16),
   (b!"extract_uint32", .extractUint32), (b!"extract_uint64", .extractUint64),
   (b!"replace3", .replace3), (b!"balance", .balance), (b!"app_opted_in", .appOptedIn),
   (b!"app_local_get", .appLocalGet), (b!"app_local_get_ex", .appLocalGetEx),
   (b!"app_global_get", .appGlobalGet), (b!"app_global_get_ex", .appGlobalGetEx),
   (b!"app_local_put", .appLocalPut), (b!"app_global_put", .appGlobalPut),
   (b!"app_local_del", .appLocalDel), (b!"app_global_del", .appGlobalDel),
   (b!"min_balance", .minBalance), (b!"ed25519verify_bare", .ed25519verifyBare),
   (b!"retsub", .retsub), (b!"shl", .shl), (b!"shr", .shr), (b!"sqrt", .sqrt),
   (b!"bitlen", .bitlen), (b!"exp", .exp), (b!"expw", .expw), (b!"bsqrt", .bsqrt),
   (b!"divw", .divw), (b!"sha3_256", .sha3_256), (b!"b+", .bplus), (b!"b-", .bminus),
   (b!"b/", .bdiv), (b!"b*", .bmul), (b!"b<", .blt), (b!"b>", .bgt), (b!"b<=", .ble),
   (b!"b>=", .bge), (b!"b==", .beq), (b!"b!=", .bneq), (b!"b%", .bmod), (b!"b|", .bbitOr),
   (b!"b&", .bbitAnd), (b!"b^", .bbitXor), (b!"b~", .bbitNot), (b!"bzero", .bzero),
   (b!"log", .log), (b!"itxn_begin", .itxnBegin), (b!"itxn_submit", .itxnSubmit),
   (b!"itxn_next", .itxnNext), (b!"box_create", .boxCreate), (b!"box_extract", .boxExtract),
   (b!"box_replace", .boxReplace), (b!"box_del", .boxDel), (b!"box_len", .boxLen),
   (b!"box_get", .boxGet), (b!"box_put", .boxPut), (b!"args", .args), (b!"gloadss", .gloadss)]

/-- Opcodes with one small number. -/
def byteOps : List (Bytes × U8Op) :=
  [(b!"intc", .intc), (b!"bytec", .bytec), (b!"arg", .arg), (b!"load", .load), (b!"store", .store),
   (b!"gloads", .gloads), (b!"gaid", .gaid), (b!"bury", .bury), (b!"popn", .popn), (b!"dupn", .dupn),
   (b!"dig", .dig), (b!"cover", .cover), (b!"uncover", .uncover), (b!"replace2", .replace2),
   (b!"replace", .replace2)]

/-- Opcodes with two small numbers. -/
def byteByteOps : List (Bytes × U8U8Op) :=
  [(b!"gload", .gload), (b!"substring", .substring), (b!"extract", .extract), (b!"proto", .proto)]

/-- Opcodes with a field of a group. -/
def fieldOps : List (Bytes × List DocField × FieldOp) :=
  [(b!"global", globalFields, .globalOp), (b!"ecdsa_verify", ecdsaFields, .ecdsaVerify),
   (b!"ecdsa_pk_decompress", ecdsaFields, .ecdsaPkDecompress), (b!"ecdsa_pk_recover", ecdsaFields, .ecdsaPkRecover),
   (b!"base64_decode", base64Fields, .base64Decode), (b!"json_ref", jsonRefFields, .jsonRef),
   (b!"asset_holding_get", assetHoldingFields, .assetHoldingGet),
   (b!"asset_params_get", assetParamsFields, .assetParamsGet), (b!"app_params_get", appParamsFields, .appParamsGet),
   (b!"acct_params_get", acctParamsFields, .acctParamsGet), (b!"vrf_verify", vrfFields, .vrfVerify),
   (b!"block", blockFields, .block), (b!"ec_add", ecGroupFields, .ecAdd),
   (b!"ec_scalar_mul", ecGroupFields, .ecScalarMul), (b!"ec_pairing_check", ecGroupFields, .ecPairingCheck),
   (b!"ec_multi_exp", ecGroupFields, .ecMultiExp), (b!"ec_subgroup_check", ecGroupFields, .ecSubgroupCheck),
   (b!"ec_map_to", ecGroupFields, .ecMapTo)]

/-- `Instr addrOk ver w ws o`: the opcode `w` with the operands `ws` is the instruction `o`. -/
inductive Instr (addrOk : Bytes → Bool) (ver : Nat) : Bytes → List Bytes → Op → Prop
  | plain (w : Bytes) (k : Plain) (h : (w, k) ∈ plainOps) : Instr addrOk ver w [] (.plain k)
  | replace3 : Instr addrOk ver b!"replace" [] (.plain .replace3)
  | extract3 : Instr addrOk ver b!"extract" [] (.plain .extract3)
  | byteOp (w x : Bytes) (k : U8Op) (n : Nat) (h : (w, k) ∈ byteOps) (hx : IsByte x n) :
      Instr addrOk ver w [x] (.u8 k n)
  | byteByteOp (w x y : Bytes) (k : U8U8Op) (m n : Nat) (h : (w, k) ∈ byteByteOps) (hx : IsByte x m) (hy : IsByte y n) :
      Instr addrOk ver w [x, y] (.u8u8 k m n)
  | smallOp (w x : Bytes) (k : I8Op) (i : Int)
      (h : (w, k) ∈ [(b!"frame_dig", .frameDig), (b!"frame_bury", .frameBury)]) (hx : IsSmall x i) :
      Instr addrOk ver w [x] (.i8 k i)
  | fieldOp (w x : Bytes) (names : List DocField) (k : FieldOp) (i : Nat) (h : (w, names, k) ∈ fieldOps)
      (hx : IsField names ver x i) : Instr addrOk ver w [x] (.field k i)
  | txn (w x : Bytes) (k : FieldOp) (f : Nat) (h : (w, k) ∈ [(b!"txn", .txn), (b!"gtxns", .gtxns), (b!"itxn", .itxn)])
      (hx : IsTxnField ver x f) : Instr addrOk ver w [x] (.field k f)
  | txnAt (w x y : Bytes) (k : FieldIdxOp) (f i : Nat) (h : (w, k) ∈ [(b!"txn", .txna), (b!"gtxns", .gtxnsa)])
      (hx : IsArrayField ver x f) (hy : IsByte y i) : Instr addrOk ver w [x, y] (.fieldIdx k f i)
  | inner (x : Bytes) (f : Nat) (hx : IsInnerField ver x f) : Instr addrOk ver b!"itxn_field" [x] (.field .itxnField f)
  | array (w x : Bytes) (k : FieldOp) (f : Nat)
      (h : (w, k) ∈ [(b!"txnas", .txnas), (b!"gtxnsas", .gtxnsas), (b!"itxnas", .itxnas)])
      (hx : IsArrayField ver x f) : Instr addrOk ver w [x] (.field k f)
  | arrayAt (w x y : Bytes) (k : FieldIdxOp) (f i : Nat)
      (h : (w, k) ∈ [(b!"txna", .txna), (b!"gtxnsa", .gtxnsa), (b!"itxna", .itxna)])
      (hx : IsArrayField ver x f) (hy : IsByte y i) : Instr addrOk ver w [x, y] (.fieldIdx k f i)
  | group (w x y : Bytes) (k : GroupFieldOp) (t f : Nat) (h : (w, k) ∈ [(b!"gtxn", .gtxn), (b!"gitxn", .gitxn)])
      (hx : IsByte x t) (hy : IsTxnField ver y f) : Instr addrOk ver w [x, y] (.groupField k t f)
  | groupArray (w x y : Bytes) (k : GroupFieldOp) (t f : Nat)
      (h : (w, k) ∈ [(b!"gtxnas", .gtxnas), (b!"gitxnas", .gitxnas)])
      (hx : IsByte x t) (hy : IsArrayField ver y f) : Instr addrOk ver w [x, y] (.groupField k t f)
  | groupAt (x y z : Bytes) (t f i : Nat) (hx : IsByte x t) (hy : IsArrayField ver y f) (hz : IsByte z i) :
      Instr addrOk ver b!"gtxn" [x, y, z] (.groupFieldIdx .gtxna t f i)
  | groupArrayAt (w x y z : Bytes) (k : GroupFieldIdxOp) (t f i : Nat)
      (h : (w, k) ∈ [(b!"gtxna", .gtxna), (b!"gitxna", .gitxna)]) (hx : IsByte x t) (hy : IsArrayField ver y f)
      (hz : IsByte z i) : Instr addrOk ver w [x, y, z] (.groupFieldIdx k t f i)
  | int (x : Bytes) (n : Nat) (hx : IsConst x n) : Instr addrOk ver b!"int" [x] (.int n)
  | pushint (x : Bytes) (n : Nat) (hx : IsUint x n) : Instr addrOk ver b!"pushint" [x] (.pushint n)
  | intcblock (ws : List Bytes) (vs : List Nat) (h : Several (Single IsUint) ws vs) :
      Instr addrOk ver b!"intcblock" ws (.intcblock vs)
  | pushints (ws : List Bytes) (vs : List Nat) (h : Several (Single IsUint) ws vs) :
      Instr addrOk ver b!"pushints" ws (.pushints vs)
  | byte (ws : List Bytes) (v : Bytes) (h : IsBytes ws v) : Instr addrOk ver b!"byte" ws (.byte v)
  | pushbytes (ws : List Bytes) (v : Bytes) (h : IsBytes ws v) : Instr addrOk ver b!"pushbytes" ws (.pushbytes v)
  | bytecblock (ws : List Bytes) (vs : List Bytes) (h : Several IsBytes ws vs) :
      Instr addrOk ver b!"bytecblock" ws (.bytecblock vs)
  | pushbytess (ws : List Bytes) (vs : List Bytes) (h : Several IsBytes ws vs) :
      Instr addrOk ver b!"pushbytess" ws (.pushbytess vs)
  | addr (x : Bytes) (h : addrOk x = true) : Instr addrOk ver b!"addr" [x] (.addr x)
  | method (s : Bytes) : Instr addrOk ver b!"method" [34 :: (s ++ [34])] (.method (34 :: (s ++ [34])))
  | branch (w l : Bytes) (k : BranchOp)
      (h : (w, k) ∈ [(b!"bnz", .bnz), (b!"bz", .bz), (b!"b", .b), (b!"callsub", .callsub)]) :
      Instr addrOk ver w [l] (.branch k l)
  | switch (ls : List Bytes) : Instr addrOk ver b!"switch" ls (.switch ls)
  | match_ (ls : List Bytes) : Instr addrOk ver b!"match" ls (.match_ ls)

/-! ## Where the code departs from the reference -/

/-- The beginnings of an encoded byte constant in parentheses. -/
def parenHeads : List Bytes := [b!"base32(", b!"b32(", b!"base64(", b!"b64("]

/-- Nothing follows the closing parenthesis of an encoded byte constant. -/
def Closed (w : Bytes) : Prop := ∀ p ∈ parenHeads, ∀ y z, w = p ++ y ++ 41 :: z → z = []

/-- Opcodes that read the field of an array. -/
def arrayOps : List Bytes :=
  [b!"txnas", b!"gtxnsas", b!"itxnas", b!"txna", b!"gtxnsa", b!"itxna", b!"gtxnas", b!"gitxnas", b!"gtxna", b!"gitxna"]

/-- Opcodes that read byte constants. -/
def byteConstOps : List Bytes := [b!"byte", b!"pushbytes", b!"bytecblock", b!"pushbytess"]

/-- The words of an instruction where the code does as the reference says. -/
structure Regular (ver : Nat) (w : Bytes) (ws : List Bytes) : Prop where
  group : w ≠ b!"gitxna"
  array : w ∈ arrayOps → ∀ x ∈ ws, ∀ d ∈ txnFields, d.name = x → d.array = true → d.since ≤ ver
  indexed : (w ∈ [b!"txn", b!"gtxns"] ∧ ws.length = 2) ∨ (w = b!"gtxn" ∧ ws.length = 3) →
    ∀ x ∈ ws, ∀ d ∈ txnFields, d.name = x → d.since ≤ ver → d.array = true
  closed : w ∈ byteConstOps → ∀ x ∈ ws, Closed x

/-! ## How many operands -/

/-- How many operands an opcode can have. -/
inductive Limit where
  | upTo (n : Nat)
  | any
  | constant

/-- Whether there are not too many operands.  A byte constant is one word, or two if the first says
how the second is to be decoded. -/
def Limit.Allows : Limit → List Bytes → Prop
  | .upTo n, ws => ws.length ≤ n
  | .any, _ => True
  | .constant, ws =>
    ws.length ≤ 1 ∨ (ws.length = 2 ∧ ∃ x, ws.head? = some x ∧ x ∈ [b!"base32", b!"b32", b!"base64", b!"b64"])

/-- How many operands the opcode `w` can have. -/
def operandLimit (w : Bytes) : Limit :=
  if w ∈ plainOps.map (·.1) then .upTo 0
  else if w ∈ [b!"intcblock", b!"pushints", b!"bytecblock", b!"pushbytess", b!"switch", b!"match"] then .any
  else if w ∈ [b!"byte", b!"pushbytes"] then .constant
  else if w ∈ [b!"gload", b!"substring", b!"extract", b!"proto", b!"txn", b!"gtxns", b!"txna", b!"gtxnsa", b!"itxna",
      b!"gitxn", b!"gtxnas", b!"gitxnas"] then .upTo 2
  else if w ∈ [b!"gtxn", b!"gtxna", b!"gitxna"] then .upTo 3
  else .upTo 1

end Teal.Spec
