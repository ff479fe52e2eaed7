import Verif.Spec.Fields
import Verif.Spec.Lexer
import Verif.Model.Op

/-!
# Instructions whose printed form reads back

What `String` prints for the instructions left out here is read as something else, or not at all;
see the disagreements in DESIGN.md.
-/

namespace Teal.Spec

/-- Byte strings whose base64 text is a word of its own: it is not empty and does not begin like a
comment. -/
def PrintableBytes (v : Bytes) : Prop := v ≠ [] ∧ ∀ b t, v = 255 :: b :: t → b < 240

/-- Field `f` of a transaction has a name that the version has. -/
def TxnNamed (ver f : Nat) : Prop := ∃ d, txnFields[f]? = some d ∧ d.since ≤ ver

/-- Field `f` of a transaction has a name and is an array. -/
def TxnArray (f : Nat) : Prop := ∃ d, txnFields[f]? = some d ∧ d.array = true

/-- Field `f` of a group has a name that the version has. -/
def Named (names : List DocField) (ver f : Nat) : Prop := ∃ d, names[f]? = some d ∧ d.since ≤ ver

/-- Fields that are printed by name have one that can be read. -/
def PrintableField (ver : Nat) : FieldOp → Nat → Prop
  | .txn, f | .gtxns, f | .itxn, f => TxnNamed ver f
  | .itxnField, f => ∃ d n, txnFields[f]? = some d ∧ d.inner = some n ∧ n ≤ ver
  | .txnas, f | .gtxnsas, f | .itxnas, f => TxnArray f
  | .globalOp, f => Named globalFields ver f
  | .assetHoldingGet, f => Named assetHoldingFields ver f
  | .assetParamsGet, f => Named assetParamsFields ver f
  | .appParamsGet, f => Named appParamsFields ver f
  | .acctParamsGet, f => Named acctParamsFields ver f
  | .vrfVerify, f => Named vrfFields ver f
  | .block, f => Named blockFields ver f
  | .ecdsaVerify, _ | .ecdsaPkDecompress, _ | .ecdsaPkRecover, _ | .base64Decode, _ | .jsonRef, _ | .ecAdd, _
  | .ecScalarMul, _ | .ecPairingCheck, _ | .ecMultiExp, _ | .ecSubgroupCheck, _ | .ecMapTo, _ => True

/-- Not a word in quotes. -/
def Unquoted (w : Bytes) : Prop := w.head? ≠ some 34

/-- The instructions that read back, in a program of version `ver`. -/
def Printable (ver : Nat) : Op → Prop
  | .u8 k _ => k ≠ .replace2
  | .field k f => PrintableField ver k f
  | .fieldIdx k f _ => k = .itxna ∨ TxnArray f
  | .groupField k _ f =>
    match k with
    | .gtxn | .gitxn => TxnNamed ver f
    | .gitxnas => TxnArray f
    | .gtxnas => False
  | .groupFieldIdx _ _ f _ => TxnArray f
  | .byte v => PrintableBytes v
  | .pushbytes v => PrintableBytes v
  | .pushbytess vs => vs ≠ [] ∧ ∀ v ∈ vs, PrintableBytes v
  | .pushints _ => False
  | .method _ => False
  | .addr a => Unquoted a
  | .branch _ l => Unquoted l
  | .switch ls => ∀ l ∈ ls, Unquoted l
  | .match_ ls => ∀ l ∈ ls, Unquoted l
  | _ => True

/-- A word without quotes that is read as itself. -/
def Bare (w : Bytes) : Prop := w ≠ [] ∧ w.head? ≠ some chQuote ∧ w.take 2 ≠ [chSlash, chSlash] ∧ ∀ x ∈ w, ¬ Stop x

instance (w : Bytes) : Decidable (Bare w) := by unfold Bare; infer_instance

/-- What a word of a text can be. -/
def WordOk (w : Bytes) : Prop := Bare w ∨ ∃ body, w = chQuote :: (body ++ [chQuote])

/-- Operands are in the range of their types, and labels are words. -/
def Valid (addrOk : Bytes → Bool) : Op → Prop
  | .label n => Bare (n ++ [chColon]) ∧ n ≠ []
  | .comment _ => False
  | .u8 _ n => n < 256
  | .u8u8 _ m n => m < 256 ∧ n < 256
  | .i8 _ i => -128 ≤ i ∧ i ≤ 127
  | .field _ f => f < 256
  | .fieldIdx _ f i => f < 256 ∧ i < 256
  | .groupField _ t f => t < 256 ∧ f < 256
  | .groupFieldIdx _ t f i => t < 256 ∧ f < 256 ∧ i < 256
  | .int v => v < 2 ^ 64
  | .pushint v => v < 2 ^ 64
  | .addr a => addrOk a = true ∧ WordOk a
  | .intcblock vs => ∀ v ∈ vs, v < 2 ^ 64
  | .branch _ l => WordOk l
  | .switch ls => ∀ l ∈ ls, WordOk l
  | .match_ ls => ∀ l ∈ ls, WordOk l
  | _ => True

end Teal.Spec
