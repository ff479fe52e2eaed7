import Verif.Model.Vm
import Verif.Spec.Fields

/-!
# Specification: what instructions take from the stack and leave on it

The table is the one of the language specification shipped with the project (`langspec.json`,
"Args", "Returns" and, for the value of a field, "ArgEnumTypes"; `U` is uint64, `B` is bytes, `.` is
any), plus the opcodes whose operands
depend on their immediates, the elliptic curve opcodes and the assembler's pseudo opcodes, from
the AVM's opcode reference.  Operands and results are listed as in the reference: the top of the
stack comes last.
-/

namespace Teal.Spec

/-- The debugger's machine knows a value only by its type, which may be unknown (`any`): a value
can be an operand of type `t` if `t` is any type, its own type is unknown, or the types agree. -/
def Suits (t : StackType) (v : VmValue) : Prop := t = .any ∨ v.t = .any ∨ v.t = t

/-- The values on top of the stack (its top first) can be the operands `ts` (the top last). -/
def StackFits (ts : List StackType) (stack : List VmValue) : Prop :=
  ts.length ≤ stack.length ∧ ∀ (i : Nat) (t : StackType) (v : VmValue),
    ts.reverse[i]? = some t → stack[i]? = some v → Suits t v

/-- The type a letter of the language specification stands for. -/
def letterType (c : UInt8) : StackType := if c = 85 then .uint64 else if c = 66 then .bytes else .any

/-- The type of field number `f`, from the letters of the types of the fields in order. -/
def typeIn (letters : Bytes) (f : Nat) : StackType :=
  match letters[f]? with
  | some c => letterType c
  | none => .any

/-- The types of the transaction fields ("ArgEnumTypes" of `txn`). -/
def txnType : Nat → StackType := typeIn b!"BUUUUBBBUBBBUUUBUUUBBBUBUUBUBUBBBUUUUBBBBBBBBUBUUUUUUUUUUUBUUUBBBUBU"

/-- The types of the global fields. -/
def globalType : Nat → StackType := typeIn b!"UUUBUUUUUBBBUUB"

/-- The types of the fields of an asset holding. -/
def assetHoldingType : Nat → StackType := typeIn b!"UU"

/-- The types of the parameters of an asset. -/
def assetParamsType : Nat → StackType := typeIn b!"UUUBBBBBBBBB"

/-- The types of the parameters of an application. -/
def appParamsType : Nat → StackType := typeIn b!"BBUUUUUBB"

/-- The types of the parameters of an account. -/
def acctParamsType : Nat → StackType := typeIn b!"UUBUUUUUUUUU"

/-- The types of the fields of a block: its seed and its time (the reference; the language
specification does not list them). -/
def blockType : Nat → StackType := typeIn b!"BU"

/-- Operands and results of an instruction, the top of the stack last. -/
def effect : Op → Option (List StackType × List StackType)
  | .plain .err => some ([], [])
  | .plain .sha256 => some ([.bytes], [.bytes])
  | .plain .keccak256 => some ([.bytes], [.bytes])
  | .plain .sha512_256 => some ([.bytes], [.bytes])
  | .plain .ed25519verify => some ([.bytes, .bytes, .bytes], [.uint64])
  | .plain .plus => some ([.uint64, .uint64], [.uint64])
  | .plain .minus => some ([.uint64, .uint64], [.uint64])
  | .plain .div => some ([.uint64, .uint64], [.uint64])
  | .plain .mul => some ([.uint64, .uint64], [.uint64])
  | .plain .lt => some ([.uint64, .uint64], [.uint64])
  | .plain .gt => some ([.uint64, .uint64], [.uint64])
  | .plain .le => some ([.uint64, .uint64], [.uint64])
  | .plain .ge => some ([.uint64, .uint64], [.uint64])
  | .plain .and => some ([.uint64, .uint64], [.uint64])
  | .plain .or => some ([.uint64, .uint64], [.uint64])
  | .plain .eq => some ([.any, .any], [.uint64])
  | .plain .neq => some ([.any, .any], [.uint64])
  | .plain .not => some ([.uint64], [.uint64])
  | .plain .len => some ([.bytes], [.uint64])
  | .plain .itob => some ([.uint64], [.bytes])
  | .plain .btoi => some ([.bytes], [.uint64])
  | .plain .mod => some ([.uint64, .uint64], [.uint64])
  | .plain .bitOr => some ([.uint64, .uint64], [.uint64])
  | .plain .bitAnd => some ([.uint64, .uint64], [.uint64])
  | .plain .bitXor => some ([.uint64, .uint64], [.uint64])
  | .plain .bitNot => some ([.uint64], [.uint64])
  | .plain .mulw => some ([.uint64, .uint64], [.uint64, .uint64])
  | .plain .addw => some ([.uint64, .uint64], [.uint64, .uint64])
  | .plain .divmodw => some ([.uint64, .uint64, .uint64, .uint64], [.uint64, .uint64, .uint64, .uint64])
  | .plain .intc_0 => some ([], [.uint64])
  | .plain .intc_1 => some ([], [.uint64])
  | .plain .intc_2 => some ([], [.uint64])
  | .plain .intc_3 => some ([], [.uint64])
  | .plain .bytec_0 => some ([], [.bytes])
  | .plain .bytec_1 => some ([], [.bytes])
  | .plain .bytec_2 => some ([], [.bytes])
  | .plain .bytec_3 => some ([], [.bytes])
  | .plain .arg_0 => some ([], [.bytes])
  | .plain .arg_1 => some ([], [.bytes])
  | .plain .arg_2 => some ([], [.bytes])
  | .plain .arg_3 => some ([], [.bytes])
  | .plain .gaids => some ([.uint64], [.uint64])
  | .plain .loads => some ([.uint64], [.any])
  | .plain .stores => some ([.uint64, .any], [])
  | .plain .returnOp => some ([.uint64], [])
  | .plain .assert => some ([.uint64], [])
  | .plain .pop => some ([.any], [])
  | .plain .dup => some ([.any], [.any, .any])
  | .plain .dup2 => some ([.any, .any], [.any, .any, .any, .any])
  | .plain .swap => some ([.any, .any], [.any, .any])
  | .plain .select => some ([.any, .any, .uint64], [.any])
  | .plain .concat => some ([.bytes, .bytes], [.bytes])
  | .plain .substring3 => some ([.bytes, .uint64, .uint64], [.bytes])
  | .plain .getbit => some ([.any, .uint64], [.uint64])
  | .plain .setbit => some ([.any, .uint64, .uint64], [.any])
  | .plain .getbyte => some ([.bytes, .uint64], [.uint64])
  | .plain .setbyte => some ([.bytes, .uint64, .uint64], [.bytes])
  | .plain .extract3 => some ([.bytes, .uint64, .uint64], [.bytes])
  | .plain .extractUint16 => some ([.bytes, .uint64], [.uint64])
  | .plain .extractUint32 => some ([.bytes, .uint64], [.uint64])
  | .plain .extractUint64 => some ([.bytes, .uint64], [.uint64])
  | .plain .replace3 => some ([.bytes, .uint64, .bytes], [.bytes])
  | .plain .balance => some ([.any], [.uint64])
  | .plain .appOptedIn => some ([.any, .uint64], [.uint64])
  | .plain .appLocalGet => some ([.any, .bytes], [.any])
  | .plain .appLocalGetEx => some ([.any, .uint64, .bytes], [.any, .uint64])
  | .plain .appGlobalGet => some ([.bytes], [.any])
  | .plain .appGlobalGetEx => some ([.uint64, .bytes], [.any, .uint64])
  | .plain .appLocalPut => some ([.any, .bytes, .any], [])
  | .plain .appGlobalPut => some ([.bytes, .any], [])
  | .plain .appLocalDel => some ([.any, .bytes], [])
  | .plain .appGlobalDel => some ([.bytes], [])
  | .plain .minBalance => some ([.any], [.uint64])
  | .plain .ed25519verifyBare => some ([.bytes, .bytes, .bytes], [.uint64])
  | .plain .shl => some ([.uint64, .uint64], [.uint64])
  | .plain .shr => some ([.uint64, .uint64], [.uint64])
  | .plain .sqrt => some ([.uint64], [.uint64])
  | .plain .bitlen => some ([.any], [.uint64])
  | .plain .exp => some ([.uint64, .uint64], [.uint64])
  | .plain .expw => some ([.uint64, .uint64], [.uint64, .uint64])
  | .plain .bsqrt => some ([.bytes], [.bytes])
  | .plain .divw => some ([.uint64, .uint64, .uint64], [.uint64])
  | .plain .sha3_256 => some ([.bytes], [.bytes])
  | .plain .bplus => some ([.bytes, .bytes], [.bytes])
  | .plain .bminus => some ([.bytes, .bytes], [.bytes])
  | .plain .bdiv => some ([.bytes, .bytes], [.bytes])
  | .plain .bmul => some ([.bytes, .bytes], [.bytes])
  | .plain .blt => some ([.bytes, .bytes], [.uint64])
  | .plain .bgt => some ([.bytes, .bytes], [.uint64])
  | .plain .ble => some ([.bytes, .bytes], [.uint64])
  | .plain .bge => some ([.bytes, .bytes], [.uint64])
  | .plain .beq => some ([.bytes, .bytes], [.uint64])
  | .plain .bneq => some ([.bytes, .bytes], [.uint64])
  | .plain .bmod => some ([.bytes, .bytes], [.bytes])
  | .plain .bbitOr => some ([.bytes, .bytes], [.bytes])
  | .plain .bbitAnd => some ([.bytes, .bytes], [.bytes])
  | .plain .bbitXor => some ([.bytes, .bytes], [.bytes])
  | .plain .bbitNot => some ([.bytes], [.bytes])
  | .plain .bzero => some ([.uint64], [.bytes])
  | .plain .log => some ([.bytes], [])
  | .plain .itxnBegin => some ([], [])
  | .plain .itxnSubmit => some ([], [])
  | .plain .itxnNext => some ([], [])
  | .plain .boxCreate => some ([.bytes, .uint64], [.uint64])
  | .plain .boxExtract => some ([.bytes, .uint64, .uint64], [.bytes])
  | .plain .boxReplace => some ([.bytes, .uint64, .bytes], [])
  | .plain .boxDel => some ([.bytes], [.uint64])
  | .plain .boxLen => some ([.bytes], [.uint64, .uint64])
  | .plain .boxGet => some ([.bytes], [.bytes, .uint64])
  | .plain .boxPut => some ([.bytes, .bytes], [])
  | .plain .args => some ([.uint64], [.bytes])
  | .plain .gloadss => some ([.uint64, .uint64], [.any])
  | .u8 .intc _ => some ([], [.uint64])
  | .u8 .bytec _ => some ([], [.bytes])
  | .u8 .arg _ => some ([], [.bytes])
  | .u8 .load _ => some ([], [.any])
  | .u8 .store _ => some ([.any], [])
  | .u8 .gloads _ => some ([.uint64], [.any])
  | .u8 .gaid _ => some ([], [.uint64])
  | .u8 .replace2 _ => some ([.bytes, .bytes], [.bytes])
  | .u8u8 .gload _ _ => some ([], [.any])
  | .u8u8 .substring _ _ => some ([.bytes], [.bytes])
  | .u8u8 .extract _ _ => some ([.bytes], [.bytes])
  | .field .txn f => some ([], [txnType f])
  | .field .gtxns f => some ([.uint64], [txnType f])
  | .field .itxn f => some ([], [txnType f])
  | .field .itxnField _ => some ([.any], [])
  | .field .txnas f => some ([.uint64], [txnType f])
  | .field .gtxnsas f => some ([.uint64, .uint64], [txnType f])
  | .field .itxnas f => some ([.uint64], [txnType f])
  | .field .globalOp f => some ([], [globalType f])
  | .field .ecdsaVerify _ => some ([.bytes, .bytes, .bytes, .bytes, .bytes], [.uint64])
  | .field .ecdsaPkDecompress _ => some ([.bytes], [.bytes, .bytes])
  | .field .ecdsaPkRecover _ => some ([.bytes, .uint64, .bytes, .bytes], [.bytes, .bytes])
  | .field .base64Decode _ => some ([.bytes], [.bytes])
  | .field .jsonRef _ => some ([.bytes, .bytes], [.any])
  | .field .assetHoldingGet f => some ([.any, .uint64], [assetHoldingType f, .uint64])
  | .field .assetParamsGet f => some ([.uint64], [assetParamsType f, .uint64])
  | .field .appParamsGet f => some ([.uint64], [appParamsType f, .uint64])
  | .field .acctParamsGet f => some ([.any], [acctParamsType f, .uint64])
  | .field .vrfVerify _ => some ([.bytes, .bytes, .bytes], [.bytes, .uint64])
  | .field .block f => some ([.uint64], [blockType f])
  | .field .ecAdd _ => some ([.bytes, .bytes], [.bytes])
  | .field .ecScalarMul _ => some ([.bytes, .bytes], [.bytes])
  | .field .ecPairingCheck _ => some ([.bytes, .bytes], [.uint64])
  | .field .ecMultiExp _ => some ([.bytes, .bytes], [.bytes])
  | .field .ecSubgroupCheck _ => some ([.bytes], [.uint64])
  | .field .ecMapTo _ => some ([.bytes], [.bytes])
  | .fieldIdx .txna f _ => some ([], [txnType f])
  | .fieldIdx .gtxnsa f _ => some ([.uint64], [txnType f])
  | .fieldIdx .itxna f _ => some ([], [txnType f])
  | .groupField .gtxn _ f => some ([], [txnType f])
  | .groupField .gitxn _ f => some ([], [txnType f])
  | .groupField .gtxnas _ f => some ([.uint64], [txnType f])
  | .groupField .gitxnas _ f => some ([.uint64], [txnType f])
  | .groupFieldIdx .gtxna _ f _ => some ([], [txnType f])
  | .groupFieldIdx .gitxna _ f _ => some ([], [txnType f])
  | .int _ => some ([], [.uint64])
  | .pushint _ => some ([], [.uint64])
  | .byte _ => some ([], [.bytes])
  | .pushbytes _ => some ([], [.bytes])
  | .addr _ => some ([], [.bytes])
  | .method _ => some ([], [.bytes])
  | .intcblock _ => some ([], [])
  | .bytecblock _ => some ([], [])
  | .pushints vs => some ([], vs.map fun _ => .uint64)
  | .pushbytess vs => some ([], vs.map fun _ => .bytes)
  | .branch .bnz _ => some ([.uint64], [])
  | .branch .bz _ => some ([.uint64], [])
  | .branch .b _ => some ([], [])
  | .branch .callsub _ => some ([], [])
  | .switch _ => some ([.uint64], [])
  | .match_ ts => some (List.replicate (ts.length + 1) .any, [])
  | .u8 .popn n => some (List.replicate n .any, [])
  | .u8 .dupn n => some ([.any], List.replicate (n + 1) .any)
  | .u8 .dig n => some (List.replicate (n + 1) .any, List.replicate (n + 2) .any)
  | .u8 .bury n => some (List.replicate (n + 1) .any, List.replicate n .any)
  | .u8 .cover n => some (List.replicate (n + 1) .any, List.replicate (n + 1) .any)
  | .u8 .uncover n => some (List.replicate (n + 1) .any, List.replicate (n + 1) .any)
  | _ => none

/-- What is pushed as a result of type `t`. -/
def Gives (t : StackType) (v : VmValue) : Prop := t = .any ∨ v.t = t

/-- The values `vs` (the top first) are results of the types `ts` (the top last). -/
def Results (ts : List StackType) (vs : List VmValue) : Prop :=
  vs.length = ts.length ∧ ∀ (i : Nat) (t : StackType) (v : VmValue),
    ts.reverse[i]? = some t → vs[i]? = some v → Gives t v

/-- How many fields an opcode knows. -/
def fieldCount : FieldOp → Nat
  | .txn | .gtxns | .itxn | .itxnField | .txnas | .gtxnsas | .itxnas => txnFields.length
  | .globalOp => globalFields.length
  | .ecdsaVerify | .ecdsaPkDecompress | .ecdsaPkRecover => ecdsaFields.length
  | .base64Decode => base64Fields.length
  | .jsonRef => jsonRefFields.length
  | .assetHoldingGet => assetHoldingFields.length
  | .assetParamsGet => assetParamsFields.length
  | .appParamsGet => appParamsFields.length
  | .acctParamsGet => acctParamsFields.length
  | .vrfVerify => vrfFields.length
  | .block => blockFields.length
  | .ecAdd | .ecScalarMul | .ecPairingCheck | .ecMultiExp | .ecSubgroupCheck | .ecMapTo =>
      ecGroupFields.length

/-- The immediates are bytes, and the numbers of fields that exist. -/
def OperandInRange : Op → Prop
  | .u8 _ n => n < 256
  | .field k f => f < fieldCount k
  | .fieldIdx _ f _ => f < txnFields.length
  | .groupField _ _ f => f < txnFields.length
  | .groupFieldIdx _ _ f _ => f < txnFields.length
  | _ => True

/-- Instructions for which the debugger's machine does not follow the table of operands:
`bitlen`, `getbit`, `setbit` and `app_opted_in` do not take what they should; `b-`, `b|` and
`extract_uint64` take nothing; `stores` also fails on a constant slot number above 255; `bury`
counts from the bottom. -/
inductive WrongOperands : Op → Prop
  | bitlen : WrongOperands (.plain .bitlen)
  | getbit : WrongOperands (.plain .getbit)
  | setbit : WrongOperands (.plain .setbit)
  | appOptedIn : WrongOperands (.plain .appOptedIn)
  | bminus : WrongOperands (.plain .bminus)
  | bbitOr : WrongOperands (.plain .bbitOr)
  | extractUint64 : WrongOperands (.plain .extractUint64)
  | stores : WrongOperands (.plain .stores)
  | bury (n : Nat) : WrongOperands (.u8 .bury n)

/-- Instructions for which it does not leave the results of the table: `addr` and `itxna` leave
nothing, `pushints` leaves byte strings. -/
inductive WrongResults : Op → Prop
  | operands (o : Op) : WrongOperands o → WrongResults o
  | addr (a : Bytes) : WrongResults (.addr a)
  | itxna (f i : Nat) : WrongResults (.fieldIdx .itxna f i)
  | pushints (vs : List Nat) : WrongResults (.pushints vs)

/-- What the stack manipulation opcodes do, as in the AVM's reference, whatever the values; the top
of the stack comes first. -/
inductive Rearranges {α : Type} : Op → List α → List α → Prop
  /-- swap: A, B → B, A -/
  | swap (a b s) : Rearranges (.plain .swap) (b :: a :: s) (a :: b :: s)
  /-- dup: A → A, A -/
  | dup (a s) : Rearranges (.plain .dup) (a :: s) (a :: a :: s)
  /-- dup2: A, B → A, B, A, B -/
  | dup2 (a b s) : Rearranges (.plain .dup2) (b :: a :: s) (b :: a :: b :: a :: s)
  /-- dig n: push the Nth value from the top, counted from 0 -/
  | dig (n a s) : s[n]? = some a → Rearranges (.u8 .dig n) s (a :: s)
  /-- cover n: remove the top and place it deeper such that N elements are above it -/
  | cover (n a xs s) : xs.length = n → Rearranges (.u8 .cover n) (a :: (xs ++ s)) (xs ++ a :: s)
  /-- uncover n: remove the value at depth N and shift above items down so the Nth deep value is
  on top -/
  | uncover (n a xs s) : xs.length = n → Rearranges (.u8 .uncover n) (xs ++ a :: s) (a :: (xs ++ s))
  /-- bury n: replace the Nth value from the top with A, which is popped; bury 0 fails -/
  | bury (n a xs x s) : xs.length + 1 = n →
      Rearranges (.u8 .bury n) (a :: (xs ++ x :: s)) (xs ++ a :: s)
  /-- popn n: remove N values from the top -/
  | popn (n xs s) : xs.length = n → Rearranges (.u8 .popn n) (xs ++ s) s
  /-- dupn n: duplicate A, N times -/
  | dupn (n a s) : Rearranges (.u8 .dupn n) (a :: s) (List.replicate (n + 1) a ++ s)

end Teal.Spec
