import Verif.Spec.Instead

/-!
# Specification: why an instruction fails
-/

namespace Teal.Spec

open Teal

/-- What the debugger takes from the stack for an instruction, the top of the stack last. -/
inductive Takes : Op → List StackType → Prop
  /-- as the reference says -/
  | table {o : Op} {args rets : List StackType} : effect o = some (args, rets) → ¬ WrongOperands o → (∀ n, o ≠ .u8 .dig n) →
      Takes o args
  /-- something else (C124) -/
  | instead {o : Op} {args rets : List StackType} : insteadTakes o = some (args, rets) → Takes o args
  | stores : Takes (.plain .stores) [.uint64, .any]
  | bury (n : Nat) : Takes (.u8 .bury n) [.any]
  /-- it only looks at the stack -/
  | dig (n : Nat) : Takes (.u8 .dig n) []

/-- `Fault args s e r`: on the stack `s` (its top first) the first value missing or of the wrong type for the operands `args`
(the top last) is the reason for the error `e`; `r` is the stack without the values above it. -/
def Fault (args : List StackType) (s : List VmValue) (e : VmErr) (r : List VmValue) : Prop :=
  ∃ (n : Nat) (t : StackType), args.reverse[n]? = some t ∧ n ≤ s.length ∧ r = s.drop n ∧
    (∀ (i : Nat) (t' : StackType) (v : VmValue), i < n → args.reverse[i]? = some t' → s[i]? = some v → Suits t' v) ∧
    ((s.length = n ∧ e = .emptyStack t) ∨ ∃ v : VmValue, s[n]? = some v ∧ ¬ Suits t v ∧ e = .wrongType t v.t)

/-- Where the machine looks at a place that does not exist. -/
inductive NoPlace : Op → List VmValue → Prop
  /-- `dig`: see C124 -/
  | dig (n : Nat) (s : List VmValue) : (¬ ∃ s', Instead (.u8 .dig n) s s') → NoPlace (.u8 .dig n) s
  /-- `bury`: counted from the bottom, above the top -/
  | bury (n : Nat) (a : VmValue) (s : List VmValue) : s.length ≤ n → NoPlace (.u8 .bury n) (a :: s)
  /-- `stores`: a constant above 255 -/
  | stores (a i : VmValue) (n : Nat) (s : List VmValue) : Suits .uint64 i → i.src = .uint n → 256 ≤ n →
      NoPlace (.plain .stores) (a :: i :: s)
  /-- the price depends on the value on the stack, but there is none -/
  | base64Decode (f : Nat) : NoPlace (.field .base64Decode f) []
  | jsonRef (f : Nat) : NoPlace (.field .jsonRef f) []

/-- The names of types in messages. -/
def typeWord : StackType → Bytes
  | .any => b!"any"
  | .uint64 => b!"uint64"
  | .bytes => b!"bytes"
  | .none => b!"(none)"

/-- What is said about a value that is missing or of the wrong type. -/
inductive Complaint : VmErr → Bytes → Prop
  | missing (t : StackType) : Complaint (.emptyStack t) (b!"empty stack - expected: " ++ typeWord t)
  | wrong (t u : StackType) : Complaint (.wrongType t u)
      (b!"unexpected data type on stack - expected: " ++ typeWord t ++ b!", got: " ++ typeWord u)

end Teal.Spec
