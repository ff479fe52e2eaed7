import Verif.Spec.Print

/-!
# Exactly which instructions read back
-/

namespace Teal.Spec

/-- A word in quotes has no further quote between them. -/
def NoInnerQuote (w : Bytes) : Prop := ∀ body, w = chQuote :: (body ++ [chQuote]) → chQuote ∉ body

/-- The labels and addresses of an instruction. -/
def keptWords : Op → List Bytes
  | .addr a => [a]
  | .branch _ l => [l]
  | .switch ls => ls
  | .match_ ls => ls
  | _ => []

/-- An instruction that, printed in a program of version `ver`, is read as itself. -/
def Restorable (ver : Nat) : Op → Prop
  | .u8 k _ => k ≠ .replace2
  | .field k f => PrintableField ver k f
  | .fieldIdx k f _ => k = .itxna ∨ TxnArray f
  | .groupField k t f =>
    match k with
    | .gtxn | .gitxn => TxnNamed ver f
    | .gitxnas => TxnArray f
    | .gtxnas => t = f
  | .groupFieldIdx _ _ f _ => TxnArray f
  | .byte v => PrintableBytes v
  | .pushbytes v => PrintableBytes v
  | .pushbytess vs => ∀ v ∈ vs, PrintableBytes v
  | .pushints _ => False
  | .method _ => False
  | _ => True

end Teal.Spec
