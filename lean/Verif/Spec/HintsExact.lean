import Verif.Spec.Hints

/-!
# Where the name of a field can be written

Under which versions the name of a field is accepted.
-/

namespace Teal.Lsp.Spec

open Teal Teal.Spec

/-- Where the opcode `w` is used under version `ver`, the field may be called `name`: the opcodes
for arrays take the name under every version, others only if the version has the field. -/
def Nameable (ver : Nat) (w name : Bytes) : Prop := w ∈ arrayOps ∨ KnownAt ver w name

end Teal.Lsp.Spec
